import Verif.Spec.Nested
import Verif.Proof.Lock

/-! # Who holds which lock -/

namespace Xcore.Nested

open Dataset Lock

/-- The release of the lock of `a` held in mode `m`. -/
def isRel (m : Mode) (a : Nat) : Instr → Bool
  | .release m' _ a' => m' = m && a' = a
  | _ => false

/-- An instruction that holds no lock and waits for none. -/
def Instr.fresh : Instr → Bool
  | .release .. | .await .. => false
  | .enter _ _ _ x => !x.isLock
  | _ => true

/-- An instruction that does not wait in the middle of the stack. -/
def Instr.tame : Instr → Bool
  | .await .. => false
  | .enter _ _ _ x => !x.isLock
  | _ => true

theorem Instr.fresh_tame {x : Instr} (h : x.fresh = true) : x.tame = true := by cases x <;> simp_all [Instr.fresh, Instr.tame]

theorem isRel_fresh {x : Instr} (h : x.fresh = true) (m : Mode) (a : Nat) : isRel m a x = false := by
  cases x <;> simp_all [Instr.fresh, isRel]

/-- `s'` is `s` with new instructions put in. -/
inductive Grows : List Instr → List Instr → Prop where
  | here {xs s : List Instr} : (∀ x ∈ xs, x.fresh = true) → Grows s (xs ++ s)
  | after {xs s : List Instr} {r : Instr} : (∀ x ∈ xs, x.fresh = true) → Grows (r :: s) (r :: (xs ++ s))

theorem Grows.refl (s : List Instr) : Grows s s := .here (xs := []) (by simp)

theorem Grows.cons {x : Instr} (s : List Instr) (h : x.fresh = true) : Grows s (x :: s) := .here (xs := [x]) (by simpa using h)

theorem Grows.andThen {xs : List Instr} (s : List Instr) (h : ∀ x ∈ xs, x.fresh = true) : Grows s (andThen xs s) := by
  cases s with
  | nil => simpa [Nested.andThen] using Grows.here (s := []) h
  | cons r s => exact .after h

theorem Grows.countP {s s' : List Instr} (h : Grows s s') (m : Mode) (a : Nat) : s'.countP (isRel m a) = s.countP (isRel m a) := by
  have hz : ∀ xs : List Instr, (∀ x ∈ xs, x.fresh = true) → xs.countP (isRel m a) = 0 := by
    intro xs hx
    rw [List.countP_eq_zero]
    intro x hxm
    simp [isRel_fresh (hx x hxm)]
  cases h with
  | here hx => rw [List.countP_append, hz _ hx, Nat.zero_add]
  | after hx => simp only [List.countP_cons, List.countP_append, hz _ hx, Nat.zero_add]

theorem Grows.mem {s s' : List Instr} (h : Grows s s') {x : Instr} (hx : x ∈ s') : x ∈ s ∨ x.fresh = true := by
  cases h with
  | here hf =>
    rcases List.mem_append.1 hx with h | h
    · exact Or.inr (hf x h)
    · exact Or.inl h
  | after hf =>
    rcases List.mem_cons.1 hx with rfl | h
    · exact Or.inl (by simp)
    · rcases List.mem_append.1 h with h | h
      · exact Or.inr (hf x h)
      · exact Or.inl (by simp [h])

theorem fresh_calls (op : Op) (l : List Nat) : ∀ x ∈ l.map (Instr.call op), x.fresh = true := by
  intro x hx
  obtain ⟨a, _, rfl⟩ := List.mem_map.1 hx
  rfl

theorem fresh_cloneElems (l : List (Option Nat)) : ∀ x ∈ cloneElems l, x.fresh = true := by
  intro x hx
  obtain ⟨a, _, rfl⟩ := List.mem_map.1 hx
  cases a <;> rfl

theorem getStep_grows {h : Heap} {ans : Option Val} {m : AMap Val} {s s' : List Instr} {segs : List Str} {h' : Heap} {ans' : Option Val}
    (e : getStep h ans m s segs = .next h' ans' s') : h' = h ∧ Grows s s' := by
  unfold getStep at e
  split at e
  · cases e; exact ⟨rfl, .refl _⟩
  · cases e; exact ⟨rfl, .refl _⟩
  · split at e
    · cases e; exact ⟨rfl, .refl _⟩
    · split at e
      · cases e; exact ⟨rfl, .cons _ rfl⟩
      · split at e
        · split at e
          · cases e; exact ⟨rfl, .refl _⟩
          · split at e <;> (cases e; exact ⟨rfl, .cons _ rfl⟩)
        · cases e; exact ⟨rfl, .refl _⟩

theorem exec_grows {h : Heap} {ans : Option Val} {x : Instr} {s s' : List Instr} {h' : Heap} {ans' : Option Val}
    (e : exec h ans x s = .next h' ans' s') : Grows s s' := by
  cases x with
  | call op a =>
    simp only [exec, callStep] at e
    split at e
    · cases e; exact .cons _ rfl
    · cases op with
      | get segs => exact (getStep_grows e).2
      | getString segs => cases e; exact .here (xs := [_, _]) (by simp [Instr.fresh])
      | set k v => cases e; exact .refl _
      | del k => cases e; exact .refl _
      | print => cases e; exact .here (fresh_calls _ _)
      | clone => cases e; exact .here (fresh_calls _ _)
    · split at e
      · cases e; exact .here (fresh_calls _ _)
      · cases e; exact .here (fresh_cloneElems _)
      · cases e; exact .refl _
    · split at e
      · cases e; exact .cons _ rfl
      · cases e; exact .here (fresh_cloneElems _)
      · cases e; exact .refl _
    · split at e
      · cases e; exact .cons _ rfl
      · cases e; exact .refl _
    · cases e; exact .refl _
  | body op a =>
    simp only [exec] at e
    split at e
    · cases e; exact .cons _ rfl
    · split at e
      · cases e; exact .refl _
      · cases e
  | elem locked c i rest =>
    simp only [exec] at e
    split at e
    · split at e
      · cases e; exact .refl _
      · cases e
        cases locked
        · exact .cons _ rfl
        · exact .andThen _ (by simp [Instr.fresh])
    · cases e; exact .refl _
  | elems c => cases e; exact .here (fresh_calls _ _)
  | printAnswer a =>
    simp only [exec] at e
    split at e
    · cases e; exact .cons _ rfl
    · cases e; exact .refl _
  | change op c =>
    cases op <;> simp only [exec, changeStep] at e
    case shift => split at e <;> cases e; exact .refl _
    case pop => split at e <;> cases e; exact .refl _
    all_goals (cases e; exact .refl _)
  | size c key => cases e; exact .andThen _ (by simp [Instr.fresh])
  | scan c n key =>
    cases n with
    | zero => cases e; exact .refl _
    | succ n => cases e; exact .cons _ rfl
  | pick c n key =>
    simp only [exec] at e
    split at e
    · cases e
    · cases e; exact .andThen _ (by simp [Instr.fresh])
    · cases e; exact .andThen _ (by simp [Instr.fresh])
  | check c n key =>
    simp only [exec] at e
    split at e
    · cases e; exact .refl _
    · cases e; exact .cons _ rfl
  | skip => cases e; exact .refl _
  | fail => cases e
  | enter => cases e
  | await => cases e
  | release => cases e

/-- The locks are held as the stacks say. -/
structure Held (c : Conf) : Prop where
  readers : ∀ a i, (c.locks a).readers.count i = (c.gor i).stack.countP (isRel .read a)
  writer : ∀ a i, (c.gor i).stack.countP (isRel .write a) = if (c.locks a).writer = some i then 1 else 0
  pending : ∀ a i, (c.locks a).pending = some i → ∃ d x s, (c.gor i).stack = .await d a x :: s
  waits : ∀ a i d x s, (c.gor i).stack = .await d a x :: s → (c.locks a).pending = some i ∧ x.isLock = false
  excl : ∀ a i, (c.locks a).writer = some i → (c.locks a).readers = [] ∧ (c.locks a).pending = none
  tame : ∀ i, ∀ x ∈ (c.gor i).stack.tail, x.tame = true
  head : ∀ i m d a x s, (c.gor i).stack = .enter m d a x :: s → x.isLock = false

theorem unwind_mem {s : List Instr} {x : Instr} (h : x ∈ unwind s) : x ∈ s := (List.mem_filter.1 h).1

theorem unwind_release {s : List Instr} {x : Instr} (h : x ∈ unwind s) : ∃ m a, x = .release m true a := by
  have := (List.mem_filter.1 h).2
  cases x <;> simp at this
  subst this
  exact ⟨_, _, rfl⟩

theorem unwind_countP {s : List Instr} (h : ∀ m a, Instr.release m false a ∉ s) (m : Mode) (a : Nat) :
    (unwind s).countP (isRel m a) = s.countP (isRel m a) := by
  induction s with
  | nil => rfl
  | cons x s ih =>
    have ih := ih (fun m a hm => h m a (by simp [hm]))
    unfold unwind at ih ⊢
    cases x with
    | release m' d a' =>
      cases d with
      | false => exact absurd (by simp) (h m' a')
      | true => simp [List.countP_cons, ih]
    | _ => simp [ih, isRel]

/-- A goroutine with other releases, or another beginning of the stack. -/
theorem Held.keep {c : Conf} (h : Held c) {i : Nat} {h' : Heap} {s : List Instr} {ans : Option Val}
    (hc : ∀ m a, s.countP (isRel m a) = (c.gor i).stack.countP (isRel m a)) (hp : ∀ d a x s, (c.gor i).stack ≠ .await d a x :: s)
    (ht : ∀ x ∈ s, x.tame = true) : Held { c with heap := h', gor := upd c.gor i ⟨s, ans⟩ } := by
  refine ⟨?_, ?_, ?_, ?_, h.excl, ?_, ?_⟩
  · intro a j
    by_cases e : j = i
    · subst e; simp only [upd_self]; rw [hc]; exact h.readers a j
    · simp only [upd_ne _ _ e]; exact h.readers a j
  · intro a j
    by_cases e : j = i
    · subst e; simp only [upd_self]; rw [hc]; exact h.writer a j
    · simp only [upd_ne _ _ e]; exact h.writer a j
  · intro a j hj
    by_cases e : j = i
    · subst e
      obtain ⟨d, x, s, hs⟩ := h.pending a j hj
      exact absurd hs (hp d a x s)
    · simp only [upd_ne _ _ e]; exact h.pending a j hj
  · intro a j d x s' hj
    by_cases e : j = i
    · subst e
      simp only [upd_self] at hj
      have := ht (.await d a x) (by rw [hj]; simp)
      cases this
    · simp only [upd_ne _ _ e] at hj; exact h.waits a j d x s' hj
  · intro j x hx
    by_cases e : j = i
    · subst e
      simp only [upd_self] at hx
      exact ht x (List.mem_of_mem_tail hx)
    · simp only [upd_ne _ _ e] at hx; exact h.tame j x hx
  · intro j m d a x s' hj
    by_cases e : j = i
    · subst e
      simp only [upd_self] at hj
      have := ht (.enter m d a x) (by rw [hj]; simp)
      simpa [Instr.tame] using this
    · simp only [upd_ne _ _ e] at hj; exact h.head j m d a x s' hj

theorem Held.tail {c : Conf} (h : Held c) {i : Nat} {x : Instr} {s : List Instr} (hst : (c.gor i).stack = x :: s) :
    ∀ y ∈ s, y.tame = true := by
  have := h.tame i
  rw [hst] at this
  exact this

theorem isRel_not_lock {x : Instr} (h : x.isLock = false) (m : Mode) (a : Nat) : isRel m a x = false := by
  cases x <;> first | rfl | cases h

theorem tame_not_lock {x : Instr} (h : x.isLock = false) : x.tame = true := by
  cases x <;> first | rfl | cases h

theorem countP_release {m m' : Mode} {d : Bool} {a b : Nat} {s : List Instr} :
    (Instr.release m d a :: s).countP (isRel m' b) = s.countP (isRel m' b) + if m = m' ∧ a = b then 1 else 0 := by
  simp [List.countP_cons, isRel]

theorem Held.move {c c' : Conf} {i : Nat} (h : Held c) (hm : Move c i c') (hcalm : Calm c i) : Held c' := by
  cases hm with
  | @run x s s' h' ans' hst hl he =>
    have hg := exec_grows he
    refine h.keep ?_ ?_ ?_
    · intro m a
      rw [hg.countP, hst, List.countP_cons, isRel_not_lock hl]
      simp
    · intro d a y t e
      rw [hst] at e
      cases e
      cases hl
    · intro y hy
      rcases hg.mem hy with hy | hy
      · exact h.tail hst y hy
      · exact Instr.fresh_tame hy
  | @panic x s hst hl he =>
    refine h.keep (h' := c.heap) ?_ ?_ ?_
    · intro m a
      rw [unwind_countP (hcalm x s hst hl he), hst, List.countP_cons, isRel_not_lock hl]
      simp
    · intro d a y t e
      rw [hst] at e
      cases e
      cases hl
    · intro y hy
      obtain ⟨m, a, rfl⟩ := unwind_release hy
      rfl
  | @rlock d a x s hst hw hp =>
    have hx : x.isLock = false := h.head _ _ _ _ _ _ hst
    have hcount : ∀ m b, (x :: Instr.release .read d a :: s).countP (isRel m b) = s.countP (isRel m b) + if Mode.read = m ∧ a = b then 1 else 0 := by
      intro m b
      rw [List.countP_cons, isRel_not_lock hx, countP_release]
      simp
    have hold : ∀ m b, (c.gor i).stack.countP (isRel m b) = s.countP (isRel m b) := by
      intro m b
      rw [hst, List.countP_cons]
      simp [isRel]
    refine ⟨?_, ?_, ?_, ?_, ?_, ?_, ?_⟩
    · intro b j
      by_cases eb : b = a
      · subst eb
        simp only [upd_self, Conf.go]
        by_cases e : j = i
        · subst e
          simp only [upd_self]
          rw [hcount, ← hold, ← h.readers b j]
          simp
        · simp only [upd_ne _ _ e]
          rw [List.count_cons_of_ne (fun e' => e e'.symm)]
          exact h.readers b j
      · simp only [upd_ne _ _ eb, Conf.go]
        by_cases e : j = i
        · subst e
          simp only [upd_self]
          rw [hcount, ← hold, h.readers b j]
          simp [Ne.symm eb]
        · simp only [upd_ne _ _ e]; exact h.readers b j
    · intro b j
      have hwr : ((upd c.locks a { c.locks a with readers := i :: (c.locks a).readers }) b).writer = (c.locks b).writer := by
        by_cases eb : b = a
        · subst eb; simp
        · simp [upd_ne _ _ eb]
      simp only [hwr, Conf.go]
      by_cases e : j = i
      · subst e
        simp only [upd_self]
        rw [hcount, ← hold, h.writer b j]
        simp
      · simp only [upd_ne _ _ e]; exact h.writer b j
    · intro b j hb
      have hpe : (c.locks b).pending = some j := by
        by_cases eb : b = a
        · subst eb; simpa using hb
        · simpa [upd_ne _ _ eb] using hb
      have eb : b ≠ a := by intro eb; subst eb; rw [hp] at hpe; cases hpe
      obtain ⟨d', x', s', hj⟩ := h.pending b j hpe
      have e : j ≠ i := by intro e; subst e; rw [hst] at hj; cases hj
      simp only [Conf.go, upd_ne _ _ e]
      exact ⟨d', x', s', hj⟩
    · intro b j d' x' s' hj
      simp only [Conf.go] at hj
      by_cases e : j = i
      · subst e; simp only [upd_self] at hj; cases hj; cases hx
      · simp only [upd_ne _ _ e] at hj
        have := h.waits b j d' x' s' hj
        by_cases eb : b = a
        · subst eb; simpa using this
        · simpa [upd_ne _ _ eb] using this
    · intro b j hj
      by_cases eb : b = a
      · subst eb; simp only [upd_self] at hj; rw [hw] at hj; cases hj
      · simp only [upd_ne _ _ eb] at hj ⊢; exact h.excl b j hj
    · intro j y hy
      simp only [Conf.go] at hy
      by_cases e : j = i
      · subst e
        simp only [upd_self, List.tail_cons, List.mem_cons] at hy
        rcases hy with rfl | hy
        · rfl
        · exact h.tail hst y hy
      · simp only [upd_ne _ _ e] at hy; exact h.tame j y hy
    · intro j m d' b y s' hj
      simp only [Conf.go] at hj
      by_cases e : j = i
      · subst e; simp only [upd_self] at hj; cases hj; cases hx
      · simp only [upd_ne _ _ e] at hj; exact h.head j m d' b y s' hj
  | @announce d a x s hst hw hp =>
    have hx : x.isLock = false := h.head _ _ _ _ _ _ hst
    have hcount : ∀ m b, (Instr.await d a x :: s).countP (isRel m b) = (c.gor i).stack.countP (isRel m b) := by
      intro m b
      rw [hst, List.countP_cons, List.countP_cons]
      simp [isRel]
    have hrd : ∀ b, ((upd c.locks a { c.locks a with pending := some i }) b).readers = (c.locks b).readers := by
      intro b
      by_cases eb : b = a
      · subst eb; simp
      · simp [upd_ne _ _ eb]
    have hwr : ∀ b, ((upd c.locks a { c.locks a with pending := some i }) b).writer = (c.locks b).writer := by
      intro b
      by_cases eb : b = a
      · subst eb; simp
      · simp [upd_ne _ _ eb]
    refine ⟨?_, ?_, ?_, ?_, ?_, ?_, ?_⟩
    · intro b j
      simp only [hrd, Conf.go]
      by_cases e : j = i
      · subst e; simp only [upd_self]; rw [hcount]; exact h.readers b j
      · simp only [upd_ne _ _ e]; exact h.readers b j
    · intro b j
      simp only [hwr, Conf.go]
      by_cases e : j = i
      · subst e; simp only [upd_self]; rw [hcount]; exact h.writer b j
      · simp only [upd_ne _ _ e]; exact h.writer b j
    · intro b j hb
      by_cases eb : b = a
      · subst eb
        simp only [upd_self, Option.some.injEq] at hb
        subst hb
        exact ⟨d, x, s, by simp [Conf.go]⟩
      · simp only [upd_ne _ _ eb] at hb
        obtain ⟨d', x', s', hj⟩ := h.pending b j hb
        have e : j ≠ i := by intro e; subst e; rw [hst] at hj; cases hj
        simp only [Conf.go, upd_ne _ _ e]
        exact ⟨d', x', s', hj⟩
    · intro b j d' x' s' hj
      simp only [Conf.go] at hj
      by_cases e : j = i
      · subst e
        simp only [upd_self] at hj
        cases hj
        exact ⟨by simp, hx⟩
      · simp only [upd_ne _ _ e] at hj
        have := h.waits b j d' x' s' hj
        have eb : b ≠ a := by intro eb; subst eb; rw [hp] at this; cases this.1
        simpa [upd_ne _ _ eb] using this
    · intro b j hj
      rw [hwr] at hj
      have eb : b ≠ a := by intro eb; subst eb; rw [hw] at hj; cases hj
      simp only [upd_ne _ _ eb]; exact h.excl b j hj
    · intro j y hy
      simp only [Conf.go] at hy
      by_cases e : j = i
      · subst e; simp only [upd_self, List.tail_cons] at hy; exact h.tail hst y hy
      · simp only [upd_ne _ _ e] at hy; exact h.tame j y hy
    · intro j m d' b y s' hj
      simp only [Conf.go] at hj
      by_cases e : j = i
      · subst e; simp only [upd_self] at hj; cases hj
      · simp only [upd_ne _ _ e] at hj; exact h.head j m d' b y s' hj
  | @lock d a x s hst hr =>
    obtain ⟨hpi, hx⟩ := h.waits _ _ _ _ _ hst
    have hwn : (c.locks a).writer = none := by
      cases e : (c.locks a).writer with
      | none => rfl
      | some j => rw [(h.excl a j e).2] at hpi; cases hpi
    have hcount : ∀ m b, (x :: Instr.release .write d a :: s).countP (isRel m b) = s.countP (isRel m b) + if Mode.write = m ∧ a = b then 1 else 0 := by
      intro m b
      rw [List.countP_cons, isRel_not_lock hx, countP_release]
      simp
    have hold : ∀ m b, (c.gor i).stack.countP (isRel m b) = s.countP (isRel m b) := by
      intro m b
      rw [hst, List.countP_cons]
      simp [isRel]
    have hrd : ∀ b, ((upd c.locks a { c.locks a with writer := some i, pending := none }) b).readers = (c.locks b).readers := by
      intro b
      by_cases eb : b = a
      · subst eb; simp
      · simp [upd_ne _ _ eb]
    refine ⟨?_, ?_, ?_, ?_, ?_, ?_, ?_⟩
    · intro b j
      simp only [hrd, Conf.go]
      by_cases e : j = i
      · subst e; simp only [upd_self]; rw [hcount, ← hold, h.readers b j]; simp
      · simp only [upd_ne _ _ e]; exact h.readers b j
    · intro b j
      simp only [Conf.go]
      by_cases eb : b = a
      · subst eb
        simp only [upd_self, Option.some.injEq]
        by_cases e : j = i
        · subst e
          simp only [upd_self]
          rw [hcount, ← hold, h.writer b j, hwn]
          simp
        · simp only [upd_ne _ _ e]
          rw [h.writer b j, hwn]
          simp [Ne.symm e]
      · simp only [upd_ne _ _ eb]
        by_cases e : j = i
        · subst e
          simp only [upd_self]
          rw [hcount, ← hold, h.writer b j]
          simp [Ne.symm eb]
        · simp only [upd_ne _ _ e]; exact h.writer b j
    · intro b j hb
      by_cases eb : b = a
      · subst eb; simp at hb
      · simp only [upd_ne _ _ eb] at hb
        obtain ⟨d', x', s', hj⟩ := h.pending b j hb
        have e : j ≠ i := by intro e; subst e; rw [hst] at hj; cases hj; exact eb rfl
        simp only [Conf.go, upd_ne _ _ e]
        exact ⟨d', x', s', hj⟩
    · intro b j d' x' s' hj
      simp only [Conf.go] at hj
      by_cases e : j = i
      · subst e; simp only [upd_self] at hj; cases hj; cases hx
      · simp only [upd_ne _ _ e] at hj
        have := h.waits b j d' x' s' hj
        have eb : b ≠ a := by intro eb; subst eb; rw [hpi] at this; exact e (by simpa using this.1.symm)
        simpa [upd_ne _ _ eb] using this
    · intro b j hj
      by_cases eb : b = a
      · subst eb; simp [hr]
      · simp only [upd_ne _ _ eb] at hj ⊢; exact h.excl b j hj
    · intro j y hy
      simp only [Conf.go] at hy
      by_cases e : j = i
      · subst e
        simp only [upd_self, List.tail_cons, List.mem_cons] at hy
        rcases hy with rfl | hy
        · rfl
        · exact h.tail hst y hy
      · simp only [upd_ne _ _ e] at hy; exact h.tame j y hy
    · intro j m d' b y s' hj
      simp only [Conf.go] at hj
      by_cases e : j = i
      · subst e; simp only [upd_self] at hj; cases hj; cases hx
      · simp only [upd_ne _ _ e] at hj; exact h.head j m d' b y s' hj
  | @runlock d a s hst =>
    have hcount : ∀ m b, (c.gor i).stack.countP (isRel m b) = s.countP (isRel m b) + if Mode.read = m ∧ a = b then 1 else 0 := by
      intro m b; rw [hst, countP_release]
    have hwr : ∀ b, ((upd c.locks a { c.locks a with readers := (c.locks a).readers.erase i }) b).writer = (c.locks b).writer := by
      intro b
      by_cases eb : b = a
      · subst eb; simp
      · simp [upd_ne _ _ eb]
    have hpd : ∀ b, ((upd c.locks a { c.locks a with readers := (c.locks a).readers.erase i }) b).pending = (c.locks b).pending := by
      intro b
      by_cases eb : b = a
      · subst eb; simp
      · simp [upd_ne _ _ eb]
    refine ⟨?_, ?_, ?_, ?_, ?_, ?_, ?_⟩
    · intro b j
      simp only [Conf.go]
      by_cases eb : b = a
      · subst eb
        simp only [upd_self]
        by_cases e : j = i
        · subst e
          simp only [upd_self]
          have := h.readers b j
          rw [hcount] at this
          rw [List.count_erase_self, this]
          simp
        · simp only [upd_ne _ _ e]
          rw [List.count_erase_of_ne e]
          exact h.readers b j
      · simp only [upd_ne _ _ eb]
        by_cases e : j = i
        · subst e
          simp only [upd_self]
          have := h.readers b j
          rw [hcount] at this
          rw [this]
          simp [Ne.symm eb]
        · simp only [upd_ne _ _ e]; exact h.readers b j
    · intro b j
      simp only [hwr, Conf.go]
      by_cases e : j = i
      · subst e
        simp only [upd_self]
        have := h.writer b j
        rw [hcount] at this
        simpa using this
      · simp only [upd_ne _ _ e]; exact h.writer b j
    · intro b j hb
      simp only [hpd] at hb
      obtain ⟨d', x', s', hj⟩ := h.pending b j hb
      have e : j ≠ i := by intro e; subst e; rw [hst] at hj; cases hj
      simp only [Conf.go, upd_ne _ _ e]
      exact ⟨d', x', s', hj⟩
    · intro b j d' x' s' hj
      simp only [hpd]
      simp only [Conf.go] at hj
      by_cases e : j = i
      · subst e
        simp only [upd_self] at hj
        have := h.tail hst (.await d' b x') (by rw [hj]; simp)
        cases this
      · simp only [upd_ne _ _ e] at hj; exact h.waits b j d' x' s' hj
    · intro b j hj
      simp only [hwr] at hj
      have := h.excl b j hj
      simp only [hpd]
      refine ⟨?_, this.2⟩
      by_cases eb : b = a
      · subst eb; simp [this.1]
      · simp only [upd_ne _ _ eb]; exact this.1
    · intro j y hy
      simp only [Conf.go] at hy
      by_cases e : j = i
      · subst e; simp only [upd_self] at hy; exact h.tail hst y (List.mem_of_mem_tail hy)
      · simp only [upd_ne _ _ e] at hy; exact h.tame j y hy
    · intro j m d' b y s' hj
      simp only [Conf.go] at hj
      by_cases e : j = i
      · subst e
        simp only [upd_self] at hj
        have := h.tail hst (.enter m d' b y) (by rw [hj]; simp)
        simpa [Instr.tame] using this
      · simp only [upd_ne _ _ e] at hj; exact h.head j m d' b y s' hj
  | @unlock d a s hst =>
    have hcount : ∀ m b, (c.gor i).stack.countP (isRel m b) = s.countP (isRel m b) + if Mode.write = m ∧ a = b then 1 else 0 := by
      intro m b; rw [hst, countP_release]
    have hme : (c.locks a).writer = some i := by
      have := h.writer a i
      rw [hcount] at this
      by_cases e : (c.locks a).writer = some i
      · exact e
      · simp [e] at this
    have hrd : ∀ b, ((upd c.locks a { c.locks a with writer := none }) b).readers = (c.locks b).readers := by
      intro b
      by_cases eb : b = a
      · subst eb; simp
      · simp [upd_ne _ _ eb]
    have hpd : ∀ b, ((upd c.locks a { c.locks a with writer := none }) b).pending = (c.locks b).pending := by
      intro b
      by_cases eb : b = a
      · subst eb; simp
      · simp [upd_ne _ _ eb]
    refine ⟨?_, ?_, ?_, ?_, ?_, ?_, ?_⟩
    · intro b j
      simp only [hrd, Conf.go]
      by_cases e : j = i
      · subst e
        simp only [upd_self]
        have := h.readers b j
        rw [hcount] at this
        simpa using this
      · simp only [upd_ne _ _ e]; exact h.readers b j
    · intro b j
      simp only [Conf.go]
      by_cases eb : b = a
      · subst eb
        simp only [upd_self]
        by_cases e : j = i
        · subst e
          simp only [upd_self]
          have := h.writer b j
          rw [hcount, hme, if_pos rfl, if_pos ⟨rfl, rfl⟩] at this
          rw [if_neg (by simp)]
          omega
        · simp only [upd_ne _ _ e]
          have := h.writer b j
          rw [hme] at this
          simpa [Ne.symm e] using this
      · simp only [upd_ne _ _ eb]
        by_cases e : j = i
        · subst e
          simp only [upd_self]
          have := h.writer b j
          rw [hcount] at this
          simpa [Ne.symm eb] using this
        · simp only [upd_ne _ _ e]; exact h.writer b j
    · intro b j hb
      simp only [hpd] at hb
      obtain ⟨d', x', s', hj⟩ := h.pending b j hb
      have e : j ≠ i := by intro e; subst e; rw [hst] at hj; cases hj
      simp only [Conf.go, upd_ne _ _ e]
      exact ⟨d', x', s', hj⟩
    · intro b j d' x' s' hj
      simp only [hpd]
      simp only [Conf.go] at hj
      by_cases e : j = i
      · subst e
        simp only [upd_self] at hj
        have := h.tail hst (.await d' b x') (by rw [hj]; simp)
        cases this
      · simp only [upd_ne _ _ e] at hj; exact h.waits b j d' x' s' hj
    · intro b j hj
      by_cases eb : b = a
      · subst eb; simp at hj
      · simp only [upd_ne _ _ eb] at hj ⊢; exact h.excl b j hj
    · intro j y hy
      simp only [Conf.go] at hy
      by_cases e : j = i
      · subst e; simp only [upd_self] at hy; exact h.tail hst y (List.mem_of_mem_tail hy)
      · simp only [upd_ne _ _ e] at hy; exact h.tame j y hy
    · intro j m d' b y s' hj
      simp only [Conf.go] at hj
      by_cases e : j = i
      · subst e
        simp only [upd_self] at hj
        have := h.tail hst (.enter m d' b y) (by rw [hj]; simp)
        simpa [Instr.tame] using this
      · simp only [upd_ne _ _ e] at hj; exact h.head j m d' b y s' hj

theorem code_fresh (call : Call) : ∀ x ∈ call.code, x.fresh = true := by
  cases call <;> simp [Call.code, Instr.fresh, Instr.isLock]

theorem Held.begin {c : Conf} (h : Held c) {i : Nat} {call : Call} (hidle : (c.gor i).stack = []) :
    Held { c with gor := c.go i call.code } := by
  refine h.keep (h' := c.heap) ?_ ?_ ?_
  · intro m a
    rw [hidle]
    have := (Grows.here (s := []) (code_fresh call)).countP m a
    simpa using this
  · intro d a x s e; rw [hidle] at e; cases e
  · intro x hx; exact Instr.fresh_tame (code_fresh call x hx)

theorem Held.start (h : Heap) : Held (start h) := by
  refine ⟨?_, ?_, ?_, ?_, ?_, ?_, ?_⟩ <;> simp [Nested.start]

theorem Held.run {P : Conf → Prop} {h0 : Heap} {c : Conf} (h : Run P (Nested.start h0) c) : Held c := by
  induction h with
  | refl => exact .start h0
  | step _ hs hc _ ih =>
    cases hs with
    | move hm => exact ih.move hm (hc _ rfl)
    | begin hi _ => exact ih.begin hi
    | alloc => exact ⟨ih.readers, ih.writer, ih.pending, ih.waits, ih.excl, ih.tame, ih.head⟩

end Xcore.Nested
