import Verif.Proof.Nested
import Verif.Base.AMap

/-! # In layered data, locks are taken from higher to lower layers -/

namespace Xcore.Nested

open Dataset Lock

/-- The instruction takes only locks of layers below `n`. -/
def Instr.lt (r : Nat → Nat) (n : Nat) : Instr → Prop
  | .enter _ _ a x => r a < n ∧ x.lt r (r a)
  | .await _ a x => r a < n ∧ x.lt r (r a)
  | .release _ _ a => r a < n
  | .call _ a => r a < n
  | .body _ a => r a ≤ n
  | .elem _ c _ _ => r c ≤ n
  | .elems c => r c ≤ n
  | .printAnswer a => r a ≤ n
  | .size c _ => r c ≤ n
  | .pick c _ _ => r c ≤ n
  | .scan c _ _ => r c < n
  | .check c _ _ => r c < n
  | _ => True

/-- What the instruction does under its own lock takes only locks of lower layers. -/
def Instr.self (r : Nat → Nat) : Instr → Prop
  | .enter _ _ a x => x.lt r (r a)
  | .await _ a x => x.lt r (r a)
  | _ => True

/-- The instruction is followed by a release. -/
def Instr.closed : Instr → Bool
  | .size .. | .pick .. | .elem true .. => true
  | _ => false

/-- The stack takes locks in the order of layers. -/
def Ok (r : Nat → Nat) : List Instr → Prop
  | [] => True
  | x :: s => (∀ m d a, Instr.release m d a ∈ s → x.lt r (r a)) ∧ x.self r ∧
      (x.closed = true → ∃ m d a s', s = .release m d a :: s' ∧ x.lt r (r a)) ∧ Ok r s

/-- A bound on the layer of the last answer. -/
abbrev Bound := Option Nat

def AnsLt (r : Nat → Nat) (β : Bound) (ans : Option Val) : Prop := ∀ n b, β = some n → ans = some (.ptr b) → r b < n

/-- The bound after the instruction. -/
def post (r : Nat → Nat) : Instr → Bound → Bound
  | .call (.get _) a, _ => some (r a)
  | .call (.getString _) a, _ => some (r a)
  | .body (.get _) a, _ => some (r a)
  | .body (.getString _) a, _ => some (r a)
  | .enter _ _ _ x, β => post r x β
  | .await _ _ x, β => post r x β
  | .elem _ c _ _, _ => some (r c)
  | .size c _, _ => some (r c)
  | .scan c _ _, _ => some (r c)
  | .pick c _ _, _ => some (r c)
  | .check c _ _, _ => some (r c)
  | .change _ _, _ => none
  | _, β => β

/-- The bound the instruction needs. -/
def need (r : Nat → Nat) : Instr → Bound → Prop
  | .printAnswer a, β => ∃ n, β = some n ∧ n ≤ r a
  | .check c _ _, β => ∃ n, β = some n ∧ n ≤ r c
  | .enter _ _ _ x, β => need r x β
  | .await _ _ x, β => need r x β
  | _, _ => True

/-- The answers are bounded where they are used. -/
def Flow (r : Nat → Nat) : Bound → List Instr → Prop
  | _, [] => True
  | _, .fail :: _ => True
  | β, x :: s => need r x β ∧ Flow r (post r x β) s

/-- `β'` is at least as good a bound as `β`. -/
def Better (β' β : Bound) : Prop := ∀ n, β = some n → ∃ n', β' = some n' ∧ n' ≤ n

theorem Better.rfl {β : Bound} : Better β β := fun n h => ⟨n, h, Nat.le_refl n⟩

theorem need_mono {r : Nat → Nat} {x : Instr} {β β' : Bound} (hb : Better β' β) (h : need r x β) : need r x β' := by
  induction x with
  | enter _ _ _ x ih => exact ih h
  | await _ _ x ih => exact ih h
  | printAnswer a => obtain ⟨n, h1, h2⟩ := h; obtain ⟨n', h3, h4⟩ := hb n h1; exact ⟨n', h3, Nat.le_trans h4 h2⟩
  | check a => obtain ⟨n, h1, h2⟩ := h; obtain ⟨n', h3, h4⟩ := hb n h1; exact ⟨n', h3, Nat.le_trans h4 h2⟩
  | _ => trivial

theorem post_mono {r : Nat → Nat} {x : Instr} {β β' : Bound} (hb : Better β' β) : Better (post r x β') (post r x β) := by
  induction x with
  | enter _ _ _ x ih => exact ih
  | await _ _ x ih => exact ih
  | call op a => cases op <;> first | exact Better.rfl | exact hb
  | body op a => cases op <;> first | exact Better.rfl | exact hb
  | _ => first | exact Better.rfl | exact hb

theorem Flow_cons {r : Nat → Nat} {x : Instr} {s : List Instr} {β : Bound} :
    Flow r β (x :: s) ↔ x = .fail ∨ (need r x β ∧ Flow r (post r x β) s) := by
  cases x <;> simp [Flow]

theorem Flow.mono {r : Nat → Nat} {s : List Instr} : ∀ {β β' : Bound}, Better β' β → Flow r β s → Flow r β' s := by
  induction s with
  | nil => intros; trivial
  | cons x s ih =>
    intro β β' hb h
    rw [Flow_cons] at h ⊢
    rcases h with h | ⟨h1, h2⟩
    · exact Or.inl h
    · exact Or.inr ⟨need_mono hb h1, ih (post_mono hb) h2⟩

/-- An instruction that does not use or change the answer. -/
def Instr.neutral : Instr → Bool
  | .call .print _ | .call .clone _ | .release .. | .fail => true
  | _ => false

theorem Flow.append {r : Nat → Nat} {xs s : List Instr} {β : Bound} (hn : ∀ x ∈ xs, x.neutral = true) (h : Flow r β s) :
    Flow r β (xs ++ s) := by
  induction xs with
  | nil => exact h
  | cons x xs ih =>
    have hx := hn x (by simp)
    have ih := ih fun y hy => hn y (by simp [hy])
    rw [List.cons_append, Flow_cons]
    cases x with
    | call op a => cases op <;> first | exact Or.inr ⟨trivial, ih⟩ | cases hx
    | release => exact Or.inr ⟨trivial, ih⟩
    | fail => exact Or.inl rfl
    | _ => cases hx

theorem Instr.lt_mono {r : Nat → Nat} {n n' : Nat} {x : Instr} (hn : n ≤ n') (h : x.lt r n) : x.lt r n' := by
  cases x <;> simp only [Instr.lt] at h ⊢ <;> first | trivial | omega | exact ⟨by omega, h.2⟩

/-- New instructions on an orderly stack. -/
theorem Ok.append {r : Nat → Nat} {xs s : List Instr} (hf : ∀ x ∈ xs, x.fresh = true ∧ x.self r ∧ x.closed = false)
    (hlt : ∀ x ∈ xs, ∀ m d a, Instr.release m d a ∈ s → x.lt r (r a)) (h : Ok r s) : Ok r (xs ++ s) := by
  induction xs with
  | nil => exact h
  | cons x xs ih =>
    obtain ⟨h1, h2, h3⟩ := hf x (by simp)
    refine ⟨?_, h2, by rw [h3]; nofun, ih (fun y hy => hf y (by simp [hy])) fun y hy => hlt y (by simp [hy])⟩
    intro m d a hm
    rcases List.mem_append.1 hm with hm | hm
    · have := (hf _ (List.mem_cons_of_mem x hm)).1
      cases this
    · exact hlt x (by simp) m d a hm

theorem Ok.cons {r : Nat → Nat} {x : Instr} {s : List Instr} (hf : x.fresh = true) (hs : x.self r) (hc : x.closed = false)
    (hlt : ∀ m d a, Instr.release m d a ∈ s → x.lt r (r a)) (h : Ok r s) : Ok r (x :: s) :=
  Ok.append (xs := [x]) (by simp [hf, hs, hc]) (by simpa using hlt) h

/-- New instructions after a release. -/
theorem Ok.after {r : Nat → Nat} {xs s : List Instr} {m : Mode} {d : Bool} {a : Nat}
    (hf : ∀ x ∈ xs, x.fresh = true ∧ x.self r ∧ x.closed = false)
    (hlt : ∀ x ∈ xs, ∀ m d b, Instr.release m d b ∈ s → x.lt r (r b)) (h : Ok r (.release m d a :: s)) :
    Ok r (.release m d a :: (xs ++ s)) := by
  refine ⟨?_, trivial, nofun, Ok.append hf hlt h.2.2.2⟩
  intro m' d' b hm
  rcases List.mem_append.1 hm with hm | hm
  · have := (hf _ hm).1
    cases this
  · exact h.1 m' d' b hm

theorem getStep_ok {r : Nat → Nat} {h : Heap} (hL : Layered r h) {ans : Option Val} {a : Nat} {m : AMap Val} (hm : h[a]? = some (.ds m))
    {s s' : List Instr} {segs : List Str} {h' : Heap} {ans' : Option Val} {β : Bound} (hlt : ∀ m d b, Instr.release m d b ∈ s → r a < r b)
    (hok : Ok r s) (hfl : Flow r (some (r a)) s) (hans : AnsLt r β ans)
    (e : getStep h ans m s segs = .next h' ans' s') : Ok r s' ∧ ∃ β', AnsLt r β' ans' ∧ Flow r β' s' := by
  have hval : ∀ k b, m.get k = some (.ptr b) → r b < r a := fun k b hg => hL a b (.value hm (AMap.mem_of_get hg))
  have hget : ∀ k, AnsLt r (some (r a)) (m.get k) := by
    intro k n b hn hb
    cases hn
    exact hval k b hb
  have hnone : AnsLt r (some (r a)) none := by intro n b _ hb; cases hb
  unfold getStep at e
  split at e
  · cases e; exact ⟨hok, _, hnone, hfl⟩
  · cases e; exact ⟨hok, _, hget _, hfl⟩
  · rename_i p p2 rest
    split at e
    · cases e; exact ⟨hok, _, hnone, hfl⟩
    · rename_i v hv
      split at e
      · rename_i b hb
        cases e
        have hvb : v = .ptr b := by
          cases v <;> simp [asDataset] at hb
          split at hb <;> simp at hb <;> rw [hb]
        subst hvb
        have hrb := hval _ _ hv
        refine ⟨Ok.cons rfl trivial rfl ?_ hok, β, hans, ?_⟩
        · intro m' d' c hc
          exact Nat.lt_trans hrb (hlt m' d' c hc)
        · rw [Flow_cons]
          exact Or.inr ⟨trivial, hfl.mono fun n hn => ⟨r b, rfl, by cases hn; omega⟩⟩
      · split at e
        · rename_i c hc
          have hvc : v = .ptr c := by
            cases v <;> simp [asCollection] at hc
            split at hc <;> simp at hc <;> rw [hc]
          subst hvc
          have hrc := hval _ _ hv
          split at e
          · cases e; exact ⟨hok, _, hnone, hfl⟩
          · split at e
            · cases e
              refine ⟨Ok.cons rfl (Nat.le_refl _) rfl ?_ hok, β, hans, ?_⟩
              · intro m' d' b hb
                exact ⟨Nat.lt_trans hrc (hlt m' d' b hb), Nat.le_refl _⟩
              · rw [Flow_cons]
                exact Or.inr ⟨trivial, hfl.mono fun n hn => ⟨r c, rfl, by cases hn; omega⟩⟩
            · cases e
              refine ⟨Ok.cons rfl trivial rfl ?_ hok, β, hans, ?_⟩
              · intro m' d' b hb
                exact Nat.le_of_lt (Nat.lt_trans hrc (hlt m' d' b hb))
              · rw [Flow_cons]
                exact Or.inr ⟨trivial, hfl.mono fun n hn => ⟨r c, rfl, by cases hn; omega⟩⟩
        · cases e; exact ⟨hok, _, hget _, hfl⟩

theorem elems_contains {h : Heap} {c b : Nat} (hb : some b ∈ Dataset.elems h c) : Contains h c b := by
  unfold Dataset.elems at hb
  split at hb
  · exact .element (by assumption) hb
  · exact .elementTS (by assumption) hb
  · cases hb

/-- Calls on objects of lower layers. -/
theorem Ok.calls {r : Nat → Nat} {s : List Instr} (op : Op) (l : List Nat) {a : Nat} (hl : ∀ b ∈ l, r b < r a)
    (hlt : ∀ m d b, Instr.release m d b ∈ s → r a ≤ r b) (h : Ok r s) : Ok r (l.map (.call op) ++ s) := by
  refine Ok.append ?_ ?_ h
  · intro x hx
    obtain ⟨b, _, rfl⟩ := List.mem_map.1 hx
    exact ⟨rfl, trivial, rfl⟩
  · intro x hx m d c hc
    obtain ⟨b, hb, rfl⟩ := List.mem_map.1 hx
    exact Nat.lt_of_lt_of_le (hl b hb) (hlt m d c hc)

theorem Flow.calls {r : Nat → Nat} {s : List Instr} {op : Op} (hop : op = .print ∨ op = .clone) (l : List Nat) {β : Bound} (h : Flow r β s) :
    Flow r β (l.map (.call op) ++ s) := by
  refine h.append ?_
  intro x hx
  obtain ⟨b, _, rfl⟩ := List.mem_map.1 hx
  rcases hop with rfl | rfl <;> rfl

theorem cloneable_ptr {h : Heap} {v : Val} {b : Nat} (hb : cloneable h v = some b) : v = .ptr b := by
  unfold cloneable at hb
  cases v with
  | ptr a =>
    simp only [asDataset, asCollection] at hb
    split at hb <;> simp at hb
    · rw [hb]
    · rw [hb]
    · split at hb <;> simp at hb <;> rw [hb]
  | _ => simp [asDataset, asCollection] at hb

theorem colGet_mem {l : List (Option Nat)} {i : Int} {e : Option Nat} (h : colGet l i = some e) : e ∈ l := by
  unfold colGet at h
  split at h
  · cases h
  · exact List.mem_of_getElem? h

theorem exec_ok {r : Nat → Nat} {h : Heap} (hL : Layered r h) {ans : Option Val} {x : Instr} {s s' : List Instr} {h' : Heap} {ans' : Option Val}
    {β : Bound} (hok : Ok r (x :: s)) (hans : AnsLt r β ans) (hfl : Flow r β (x :: s)) (e : exec h ans x s = .next h' ans' s') :
    Ok r s' ∧ ∃ β', AnsLt r β' ans' ∧ Flow r β' s' := by
  obtain ⟨hlt, hself, hcl, hs⟩ := hok
  have hnone : ∀ β, AnsLt r β none := by intro β n b _ hb; cases hb
  cases x with
  | call op a =>
    simp only [Instr.lt] at hlt
    rw [Flow_cons] at hfl
    obtain ⟨_, hfl⟩ := hfl.resolve_left nofun
    simp only [exec, callStep] at e
    split at e
    · cases e
      refine ⟨Ok.cons rfl (Nat.le_refl _) rfl (fun m d b hb => ⟨hlt m d b hb, Nat.le_refl _⟩) hs, β, hans, ?_⟩
      rw [Flow_cons]
      refine Or.inr ⟨trivial, ?_⟩
      cases op <;> exact hfl
    · rename_i m hm
      cases op with
      | get segs => exact getStep_ok hL hm hlt hs hfl hans e
      | getString segs =>
        cases e
        refine ⟨Ok.append (xs := [_, _]) (by simp [Instr.fresh, Instr.self, Instr.closed]) ?_ hs, β, hans, ?_⟩
        · intro y hy m' d b hb
          simp only [List.mem_cons, List.not_mem_nil, or_false] at hy
          rcases hy with rfl | rfl
          · exact hlt m' d b hb
          · exact Nat.le_of_lt (hlt m' d b hb)
        · rw [Flow_cons]
          refine Or.inr ⟨trivial, ?_⟩
          rw [Flow_cons]
          exact Or.inr ⟨⟨_, rfl, Nat.le_refl _⟩, hfl⟩
      | set k v => cases e; exact ⟨hs, β, hans, hfl⟩
      | del k => cases e; exact ⟨hs, β, hans, hfl⟩
      | print =>
        cases e
        refine ⟨Ok.calls .print _ (a := a) ?_ (fun m d b hb => Nat.le_of_lt (hlt m d b hb)) hs, β, hans, Flow.calls (Or.inl rfl) _ hfl⟩
        intro b hb
        obtain ⟨⟨k, v⟩, hp, hpv⟩ := List.mem_filterMap.1 hb
        cases v <;> simp [ptrOf] at hpv
        subst hpv
        exact hL a _ (.value hm hp)
      | clone =>
        cases e
        refine ⟨Ok.calls .clone _ (a := a) ?_ (fun m d b hb => Nat.le_of_lt (hlt m d b hb)) hs, β, hans, Flow.calls (Or.inr rfl) _ hfl⟩
        intro b hb
        obtain ⟨⟨k, v⟩, hp, hpv⟩ := List.mem_filterMap.1 hb
        obtain rfl := cloneable_ptr hpv
        exact hL a _ (.value hm hp)
    · rename_i l hl
      split at e
      · cases e
        refine ⟨Ok.calls .print _ (a := a) ?_ (fun m d b hb => Nat.le_of_lt (hlt m d b hb)) hs, β, hans, Flow.calls (Or.inl rfl) _ hfl⟩
        intro b hb
        obtain ⟨o, ho, rfl⟩ := List.mem_filterMap.1 hb
        exact hL a _ (.element hl ho)
      · cases e
        refine ⟨Ok.append ?_ ?_ hs, β, hans, hfl.append ?_⟩
        · intro y hy
          obtain ⟨o, _, rfl⟩ := List.mem_map.1 hy
          cases o <;> exact ⟨rfl, trivial, rfl⟩
        · intro y hy m d b hb
          obtain ⟨o, ho, rfl⟩ := List.mem_map.1 hy
          cases o with
          | none => trivial
          | some o => exact Nat.lt_trans (hL a _ (.element hl ho)) (hlt m d b hb)
        · intro y hy
          obtain ⟨o, _, rfl⟩ := List.mem_map.1 hy
          cases o <;> rfl
      · cases e
        exact ⟨hs, _, hnone _, hfl⟩
    · rename_i l hl
      split at e
      · cases e
        refine ⟨Ok.cons rfl (Nat.le_refl _) rfl (fun m d b hb => ⟨hlt m d b hb, Nat.le_refl _⟩) hs, β, hans, ?_⟩
        rw [Flow_cons]
        exact Or.inr ⟨trivial, hfl⟩
      · cases e
        refine ⟨Ok.append ?_ ?_ hs, β, hans, hfl.append ?_⟩
        · intro y hy
          obtain ⟨o, _, rfl⟩ := List.mem_map.1 hy
          cases o <;> exact ⟨rfl, trivial, rfl⟩
        · intro y hy m d b hb
          obtain ⟨o, ho, rfl⟩ := List.mem_map.1 hy
          cases o with
          | none => trivial
          | some o => exact Nat.lt_trans (hL a _ (.elementTS hl ho)) (hlt m d b hb)
        · intro y hy
          obtain ⟨o, _, rfl⟩ := List.mem_map.1 hy
          cases o <;> rfl
      · cases e
        exact ⟨hs, _, hnone _, hfl⟩
    · split at e
      · cases e
        refine ⟨Ok.cons rfl trivial rfl (fun m d b hb => ⟨hlt m d b hb, trivial⟩) hs, β, hans, ?_⟩
        rw [Flow_cons]
        exact Or.inr ⟨trivial, hfl⟩
      · cases e
        exact ⟨hs, _, hnone _, hfl⟩
    · cases e
      exact ⟨hs, _, hnone _, hfl⟩
  | body op a =>
    simp only [Instr.lt] at hlt
    rw [Flow_cons] at hfl
    obtain ⟨_, hfl⟩ := hfl.resolve_left nofun
    simp only [exec] at e
    split at e
    · rename_i b hb
      cases e
      have hrb := hL a b (.wrapped hb)
      refine ⟨Ok.cons rfl trivial rfl (fun m d c hc => Nat.lt_of_lt_of_le hrb (hlt m d c hc)) hs, β, hans, ?_⟩
      rw [Flow_cons]
      refine Or.inr ⟨trivial, ?_⟩
      cases op with
      | get segs => exact hfl.mono fun n hn => ⟨r b, rfl, by cases hn; omega⟩
      | getString segs => exact hfl.mono fun n hn => ⟨r b, rfl, by cases hn; omega⟩
      | _ => exact hfl
    · split at e
      · cases e; exact ⟨hs, β, hans, hfl⟩
      · cases e
  | elem locked c i rest =>
    simp only [Instr.lt] at hlt
    rw [Flow_cons] at hfl
    replace hfl := (hfl.resolve_left nofun).2
    simp only [post] at hfl
    simp only [exec] at e
    split at e
    · rename_i b hb
      have hrb := hL c b (elems_contains (colGet_mem hb))
      have hcall : ∀ {s : List Instr}, Flow r (some (r c)) s → ∀ segs, Flow r β (.call (.get segs) b :: s) := by
        intro s hf segs
        rw [Flow_cons]
        exact Or.inr ⟨trivial, hf.mono fun n hn => ⟨r b, rfl, by cases hn; omega⟩⟩
      split at e
      · cases e
        refine ⟨hs, _, ?_, hfl⟩
        intro n b' hn hb'
        cases hn; cases hb'
        exact hrb
      · cases e
        cases locked with
        | false =>
          exact ⟨Ok.cons rfl trivial rfl (fun m d a ha => Nat.lt_of_lt_of_le hrb (hlt m d a ha)) hs, β, hans, hcall hfl _⟩
        | true =>
          obtain ⟨m, d, a, s1, rfl, _⟩ := hcl rfl
          refine ⟨Ok.after (xs := [_]) (by simp [Instr.fresh, Instr.self, Instr.closed]) ?_ hs, β, hans, ?_⟩
          · simp only [List.mem_singleton, forall_eq]
            intro m' d' a' ha
            exact Nat.lt_of_lt_of_le hrb (hlt m' d' a' (by simp [ha]))
          · exact ⟨trivial, hcall hfl.2 _⟩
    · cases e
      exact ⟨hs, _, hnone _, hfl⟩
  | elems c =>
    simp only [Instr.lt] at hlt
    rw [Flow_cons] at hfl
    replace hfl := (hfl.resolve_left nofun).2
    cases e
    refine ⟨Ok.calls .print _ (a := c) ?_ hlt hs, β, hans, Flow.calls (Or.inl rfl) _ hfl⟩
    intro b hb
    obtain ⟨o, ho, rfl⟩ := List.mem_filterMap.1 hb
    exact hL c _ (elems_contains ho)
  | printAnswer a =>
    simp only [Instr.lt] at hlt
    rw [Flow_cons] at hfl
    obtain ⟨⟨n, hn, hna⟩, hfl⟩ := hfl.resolve_left nofun
    simp only [exec] at e
    split at e
    · rename_i b
      cases e
      have hrb := hans n b hn rfl
      refine ⟨Ok.cons rfl trivial rfl (fun m d c hc => Nat.lt_of_lt_of_le (Nat.lt_of_lt_of_le hrb hna) (hlt m d c hc)) hs, β, hans, ?_⟩
      rw [Flow_cons]
      exact Or.inr ⟨trivial, hfl⟩
    · cases e; exact ⟨hs, β, hans, hfl⟩
  | change op c =>
    rw [Flow_cons] at hfl
    replace hfl := (hfl.resolve_left nofun).2
    have hany : ∀ ans, AnsLt r none ans := by intro ans n b hn; cases hn
    cases op <;> simp only [exec, changeStep] at e
    case shift => split at e <;> cases e; exact ⟨hs, none, hany _, hfl⟩
    case pop => split at e <;> cases e; exact ⟨hs, none, hany _, hfl⟩
    all_goals (cases e; exact ⟨hs, none, hany _, hfl⟩)
  | size c key =>
    rw [Flow_cons] at hfl
    replace hfl := (hfl.resolve_left nofun).2
    cases e
    obtain ⟨m, d, a, s1, rfl, hca⟩ := hcl rfl
    refine ⟨Ok.after (xs := [_]) (by simp [Instr.fresh, Instr.self, Instr.closed]) ?_ hs, β, hans, ?_⟩
    · simp only [List.mem_singleton, forall_eq]
      intro m' d' a' ha
      exact Nat.lt_of_le_of_lt hca (hs.1 m' d' a' ha)
    · exact ⟨trivial, trivial, hfl.2⟩
  | scan c n key =>
    rw [Flow_cons] at hfl
    replace hfl := (hfl.resolve_left nofun).2
    cases n with
    | zero => cases e; exact ⟨hs, _, hnone _, hfl⟩
    | succ n =>
      cases e
      refine ⟨Ok.cons rfl (Nat.le_refl _) rfl (fun m d b hb => ⟨hlt m d b hb, Nat.le_refl _⟩) hs, β, hans, ?_⟩
      rw [Flow_cons]
      exact Or.inr ⟨trivial, hfl⟩
  | pick c n key =>
    rw [Flow_cons] at hfl
    replace hfl := (hfl.resolve_left nofun).2
    obtain ⟨m, d, a, s1, rfl, hca⟩ := hcl rfl
    simp only [exec] at e
    split at e
    · cases e
    · cases e
      refine ⟨Ok.after (xs := [_]) (by simp [Instr.fresh, Instr.self, Instr.closed]) ?_ hs, β, hans, ?_⟩
      · simp only [List.mem_singleton, forall_eq]
        intro m' d' a' ha
        trivial
      · exact ⟨trivial, trivial⟩
    · rename_i b hb
      have hrb := hL c b (elems_contains (List.mem_of_getElem? hb))
      cases e
      refine ⟨Ok.after (xs := [_, _]) (by simp [Instr.fresh, Instr.self, Instr.closed]) ?_ hs, β, hans, ?_⟩
      · intro y hy m' d' a' ha
        have hlt' : r c < r a' := Nat.lt_of_le_of_lt hca (hs.1 m' d' a' ha)
        simp only [List.mem_cons, List.not_mem_nil, or_false] at hy
        rcases hy with rfl | rfl
        · exact Nat.lt_trans hrb hlt'
        · exact hlt'
      · exact ⟨trivial, trivial, ⟨_, rfl, Nat.le_of_lt hrb⟩, hfl.2⟩
  | check c n key =>
    rw [Flow_cons] at hfl
    obtain ⟨⟨k, hk, hkc⟩, hfl⟩ := hfl.resolve_left nofun
    simp only [exec] at e
    split at e
    · cases e
      refine ⟨hs, _, ?_, hfl⟩
      intro n' b hn' hb
      cases hn'
      exact Nat.lt_of_lt_of_le (hans k b hk hb) hkc
    · cases e
      refine ⟨Ok.cons rfl trivial rfl hlt hs, β, hans, ?_⟩
      rw [Flow_cons]
      exact Or.inr ⟨trivial, hfl⟩
  | skip =>
    rw [Flow_cons] at hfl
    cases e
    exact ⟨hs, β, hans, (hfl.resolve_left nofun).2⟩
  | fail => cases e
  | enter => cases e
  | await => cases e
  | release => cases e

/-- Every goroutine takes locks in the order of layers. -/
def Orderly (r : Nat → Nat) (c : Conf) : Prop :=
  ∀ i, Ok r (c.gor i).stack ∧ ∃ β, AnsLt r β (c.gor i).ans ∧ Flow r β (c.gor i).stack

theorem Ok.releases {r : Nat → Nat} {s : List Instr} (h : Ok r s) : Ok r (unwind s) := by
  induction s with
  | nil => trivial
  | cons x s ih =>
    obtain ⟨h1, h2, h3, h4⟩ := h
    have ih := ih h4
    unfold unwind at ih ⊢
    rw [List.filter_cons]
    cases x with
    | release m d a =>
      cases d
      · exact ih
      · exact ⟨fun m d a hm => h1 m d a (List.mem_filter.1 hm).1, h2, nofun, ih⟩
    | _ => exact ih

theorem Flow.releases {r : Nat → Nat} (s : List Instr) (β : Bound) : Flow r β (unwind s) := by
  have := Flow.append (r := r) (xs := unwind s) (s := []) (β := β) (by
    intro x hx
    obtain ⟨m, a, rfl⟩ := unwind_release hx
    rfl) trivial
  simpa using this

theorem Orderly.set {r : Nat → Nat} {c : Conf} (h : Orderly r c) {i : Nat} {h' : Heap} {l' : Nat → Rw} {s : List Instr} {ans : Option Val}
    (hi : Ok r s ∧ ∃ β, AnsLt r β ans ∧ Flow r β s) : Orderly r ⟨h', l', upd c.gor i ⟨s, ans⟩⟩ := by
  intro j
  by_cases e : j = i
  · subst e; simpa using hi
  · simpa [upd_ne _ _ e] using h j

theorem Orderly.move {r : Nat → Nat} {c c' : Conf} {i : Nat} (hh : Held c) (h : Orderly r c) (hL : Layered r c.heap) (hm : Move c i c') : Orderly r c' := by
  obtain ⟨hok, β, hans, hfl⟩ := h i
  cases hm with
  | @run x s s' h' ans' hst hl he =>
    rw [hst] at hok hfl
    exact h.set (exec_ok hL hok hans hfl he)
  | @panic x s hst hl he =>
    rw [hst] at hok hfl
    exact h.set ⟨hok.2.2.2.releases, β, hans, Flow.releases s β⟩
  | @rlock d a x s hst hw hp =>
    rw [hst] at hok hfl
    obtain ⟨h1, h2, h3, h4⟩ := hok
    have hfl := hfl
    have hx := hh.head _ _ _ _ _ _ hst
    refine h.set ⟨⟨?_, ?_, ?_, ?_, trivial, nofun, h4⟩, β, hans, ?_⟩
    · intro m d' b hb
      simp only [List.mem_cons, Instr.release.injEq] at hb
      rcases hb with ⟨_, _, rfl⟩ | hb
      · exact h2
      · exact Instr.lt_mono (Nat.le_of_lt (h1 m d' b hb).1) h2
    · cases x <;> first | trivial | cases hx
    · intro hc; exact ⟨_, _, _, _, rfl, h2⟩
    · intro m d' b hb; exact (h1 m d' b hb).1
    · rw [Flow_cons] at hfl ⊢
      have hfl := hfl.resolve_left nofun
      exact Or.inr ⟨hfl.1, trivial, hfl.2⟩
  | @announce d a x s hst hw hp =>
    rw [hst] at hok hfl
    obtain ⟨h1, h2, h3, h4⟩ := hok
    refine h.set ⟨⟨h1, h2, nofun, h4⟩, β, hans, ?_⟩
    rw [Flow_cons] at hfl ⊢
    exact Or.inr (hfl.resolve_left nofun)
  | @lock d a x s hst hr =>
    rw [hst] at hok hfl
    obtain ⟨h1, h2, h3, h4⟩ := hok
    have hx := (hh.waits _ _ _ _ _ hst).2
    refine h.set ⟨⟨?_, ?_, ?_, ?_, trivial, nofun, h4⟩, β, hans, ?_⟩
    · intro m d' b hb
      simp only [List.mem_cons, Instr.release.injEq] at hb
      rcases hb with ⟨_, _, rfl⟩ | hb
      · exact h2
      · exact Instr.lt_mono (Nat.le_of_lt (h1 m d' b hb).1) h2
    · cases x <;> first | trivial | cases hx
    · intro hc; exact ⟨_, _, _, _, rfl, h2⟩
    · intro m d' b hb; exact (h1 m d' b hb).1
    · rw [Flow_cons] at hfl ⊢
      have hfl := hfl.resolve_left nofun
      exact Or.inr ⟨hfl.1, trivial, hfl.2⟩
  | @runlock d a s hst =>
    rw [hst] at hok hfl
    exact h.set ⟨hok.2.2.2, β, hans, hfl.2⟩
  | @unlock d a s hst =>
    rw [hst] at hok hfl
    exact h.set ⟨hok.2.2.2, β, hans, hfl.2⟩

theorem code_ok (r : Nat → Nat) (call : Call) (ans : Option Val) : Ok r call.code ∧ ∃ β, AnsLt r β ans ∧ Flow r β call.code := by
  refine ⟨?_, none, (by intro n b hn; cases hn), ?_⟩
  · cases call <;> simp [Call.code, Ok, Instr.self, Instr.closed, Instr.lt]
  · cases call <;> simp [Call.code, Flow, need, post]

theorem Orderly.run {r : Nat → Nat} {h0 : Heap} {c : Conf} (h : Run (fun c => Layered r c.heap) (start h0) c) : Orderly r c ∧ Layered r c.heap := by
  induction h with
  | refl hp => exact ⟨fun i => ⟨trivial, none, (by intro n b hn; cases hn), trivial⟩, hp⟩
  | step hr hs hc hp ih =>
    refine ⟨?_, hp⟩
    cases hs with
    | move hm => exact ih.1.move (Held.run hr) ih.2 hm
    | begin hi _ => exact ih.1.set (code_ok r _ _)
    | alloc => exact ih.1

/-! ## Somebody can always go on -/

/-- The lock the goroutine waits for. -/
def wants (c : Conf) (i : Nat) (a : Nat) : Prop :=
  (∃ m d x s, (c.gor i).stack = .enter m d a x :: s) ∨ ∃ d x s, (c.gor i).stack = .await d a x :: s

theorem moves_or_wants (c : Conf) (i : Nat) (hb : (c.gor i).stack ≠ []) : (∃ c', Move c i c') ∨ ∃ a, wants c i a := by
  cases hst : (c.gor i).stack with
  | nil => exact absurd hst hb
  | cons x s =>
    by_cases hl : x.isLock = true
    · cases x with
      | enter m d a x => exact Or.inr ⟨a, Or.inl ⟨m, d, x, s, hst⟩⟩
      | await d a x => exact Or.inr ⟨a, Or.inr ⟨d, x, s, hst⟩⟩
      | release m d a =>
        cases m with
        | read => exact Or.inl ⟨_, .runlock hst⟩
        | write => exact Or.inl ⟨_, .unlock hst⟩
      | _ => cases hl
    · have hl : x.isLock = false := by simpa using hl
      cases he : exec c.heap (c.gor i).ans x s with
      | next h' ans' s' => exact Or.inl ⟨_, .run hst hl he⟩
      | panic => exact Or.inl ⟨_, .panic hst hl he⟩

theorem wants_below {r : Nat → Nat} {c : Conf} (ho : Orderly r c) {j a b : Nat} (hw : wants c j b) {m : Mode} {d : Bool}
    (hr : Instr.release m d a ∈ (c.gor j).stack) : r b < r a := by
  have hok := (ho j).1
  rcases hw with ⟨m', d', x, s, hst⟩ | ⟨d', x, s, hst⟩
  all_goals
    rw [hst] at hok hr
    simp only [List.mem_cons, reduceCtorEq, false_or] at hr
    exact (hok.1 m d a hr).1

theorem holder_releases {c : Conf} (hh : Held c) {a j : Nat} (h : (c.locks a).writer = some j ∨ j ∈ (c.locks a).readers) :
    ∃ m d, Instr.release m d a ∈ (c.gor j).stack := by
  have key : ∀ m, 0 < (c.gor j).stack.countP (isRel m a) → ∃ m d, Instr.release m d a ∈ (c.gor j).stack := by
    intro m hp
    obtain ⟨x, hx, hxr⟩ := List.countP_pos_iff.1 hp
    cases x <;> simp [isRel] at hxr
    obtain ⟨rfl, rfl⟩ := hxr
    exact ⟨_, _, hx⟩
  rcases h with h | h
  · refine key .write ?_
    rw [hh.writer a j, if_pos h]
    omega
  · refine key .read ?_
    rw [← hh.readers a j]
    exact List.count_pos_iff.2 h

theorem progress {r : Nat → Nat} {c : Conf} (hh : Held c) (ho : Orderly r c) {i : Nat} (hb : (c.gor i).stack ≠ []) : ∃ j c', Move c j c' := by
  rcases Classical.em (∃ j c', Move c j c') with h | hno
  · exact h
  exfalso
  have hall : ∀ j, (c.gor j).stack ≠ [] → ∃ a, wants c j a := fun j hj =>
    (moves_or_wants c j hj).resolve_left fun ⟨c', hm⟩ => hno ⟨j, c', hm⟩
  -- a goroutine that waits for a lock somebody holds waits for somebody who waits for a lower lock
  have hheld : ∀ a j, (c.locks a).writer = some j ∨ j ∈ (c.locks a).readers → ∃ b, wants c j b ∧ r b < r a := by
    intro a j hj
    obtain ⟨m, d, hr⟩ := holder_releases hh hj
    obtain ⟨b, hw⟩ := hall j (by intro e; rw [e] at hr; cases hr)
    exact ⟨b, hw, wants_below ho hw hr⟩
  have hawait : ∀ a j d x s, (c.gor j).stack = .await d a x :: s → ∃ k b, wants c k b ∧ r b < r a := by
    intro a j d x s hst
    cases hrd : (c.locks a).readers with
    | nil => exact absurd ⟨j, _, .lock hst hrd⟩ hno
    | cons k ks =>
      obtain ⟨b, h1, h2⟩ := hheld a k (Or.inr (by rw [hrd]; simp))
      exact ⟨k, b, h1, h2⟩
  have hdown : ∀ n a j, wants c j a → r a = n → False := by
    intro n
    induction n using Nat.strongRecOn with
    | _ n ih =>
      intro a j hw hn
      rcases hw with ⟨m, d, x, s, hst⟩ | ⟨d, x, s, hst⟩
      · cases hwr : (c.locks a).writer with
        | some k =>
          obtain ⟨b, h1, h2⟩ := hheld a k (Or.inl hwr)
          exact ih (r b) (by omega) b k h1 rfl
        | none =>
          cases hp : (c.locks a).pending with
          | none =>
            cases m with
            | read => exact hno ⟨j, _, .rlock hst hwr hp⟩
            | write => exact hno ⟨j, _, .announce hst hwr hp⟩
          | some k =>
            obtain ⟨d', x', s', hk⟩ := hh.pending a k hp
            obtain ⟨k', b, h1, h2⟩ := hawait a k d' x' s' hk
            exact ih (r b) (by omega) b k' h1 rfl
      · obtain ⟨k', b, h1, h2⟩ := hawait a j d x s hst
        exact ih (r b) (by omega) b k' h1 rfl
  obtain ⟨a, hw⟩ := hall i hb
  exact hdown _ a i hw rfl

end Xcore.Nested
