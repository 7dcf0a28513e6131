import Verif.Proof.NestedEnd

/-! # Executions computed from a list of actions -/

namespace Xcore.Nested

open Dataset Lock

/-- The step of goroutine `i`, if it can go on. -/
def tryMove (c : Conf) (i : Nat) : Option Conf :=
  match (c.gor i).stack with
  | [] => none
  | .enter .read d a x :: s =>
    if (c.locks a).writer = none ∧ (c.locks a).pending = none then
      some { c with
        locks := upd c.locks a { c.locks a with readers := i :: (c.locks a).readers },
        gor := c.go i (x :: .release .read d a :: s) }
    else none
  | .enter .write d a x :: s =>
    if (c.locks a).writer = none ∧ (c.locks a).pending = none then
      some { c with
        locks := upd c.locks a { c.locks a with pending := some i },
        gor := c.go i (.await d a x :: s) }
    else none
  | .await d a x :: s =>
    if (c.locks a).readers = [] then
      some { c with
        locks := upd c.locks a { c.locks a with writer := some i, pending := none },
        gor := c.go i (x :: .release .write d a :: s) }
    else none
  | .release .read _ a :: s =>
    some { c with
      locks := upd c.locks a { c.locks a with readers := (c.locks a).readers.erase i },
      gor := c.go i s }
  | .release .write _ a :: s =>
    some { c with
      locks := upd c.locks a { c.locks a with writer := none },
      gor := c.go i s }
  | x :: s => match exec c.heap (c.gor i).ans x s with
    | .next h' ans' s' => some { c with heap := h', gor := upd c.gor i ⟨s', ans'⟩ }
    | .panic => some { c with gor := c.go i (unwind s) }

theorem tryMove_run {c : Conf} {i : Nat} {x : Instr} {s : List Instr} (hst : (c.gor i).stack = x :: s) (hl : x.isLock = false) :
    tryMove c i = match exec c.heap (c.gor i).ans x s with
      | .next h' ans' s' => some { c with heap := h', gor := upd c.gor i ⟨s', ans'⟩ }
      | .panic => some { c with gor := c.go i (unwind s) } := by
  unfold tryMove
  rw [hst]
  cases x <;> first | rfl | cases hl

theorem Move.tryMove {c c' : Conf} {i : Nat} (h : Move c i c') : tryMove c i = some c' := by
  cases h with
  | run hst hl he => rw [tryMove_run hst hl, he]
  | panic hst hl he => rw [tryMove_run hst hl, he]
  | rlock hst hw hp => unfold Nested.tryMove; rw [hst]; simp only [hw, hp, and_self, if_true]
  | announce hst hw hp => unfold Nested.tryMove; rw [hst]; simp only [hw, hp, and_self, if_true]
  | lock hst hr => unfold Nested.tryMove; rw [hst]; simp only [hr, if_true]
  | runlock hst => unfold Nested.tryMove; rw [hst]
  | unlock hst => unfold Nested.tryMove; rw [hst]

theorem move_of_tryMove {c c' : Conf} {i : Nat} (h : tryMove c i = some c') : Move c i c' := by
  cases hst : (c.gor i).stack with
  | nil => unfold tryMove at h; rw [hst] at h; cases h
  | cons x s =>
    by_cases hl : x.isLock = false
    · rw [tryMove_run hst hl] at h
      cases he : exec c.heap (c.gor i).ans x s with
      | next h' ans' s' => rw [he] at h; cases h; exact .run hst hl he
      | panic => rw [he] at h; cases h; exact .panic hst hl he
    · unfold tryMove at h
      rw [hst] at h
      cases x with
      | enter m d a x =>
        cases m with
        | read =>
          simp only at h
          split at h
          · rename_i hc; cases h; exact .rlock hst hc.1 hc.2
          · cases h
        | write =>
          simp only at h
          split at h
          · rename_i hc; cases h; exact .announce hst hc.1 hc.2
          · cases h
      | await d a x =>
        simp only at h
        split at h
        · rename_i hc; cases h; exact .lock hst hc
        · cases h
      | release m d a =>
        cases m with
        | read => cases h; exact .runlock hst
        | write => cases h; exact .unlock hst
      | _ => exact absurd rfl hl

/-- A goroutine has one way to go on. -/
theorem Move.unique {c c1 c2 : Conf} {i : Nat} (h1 : Move c i c1) (h2 : Move c i c2) : c1 = c2 := by
  have := h1.tryMove.symm.trans h2.tryMove
  exact Option.some.inj this

/-- No panic now leaves a lock behind. -/
def calmB (c : Conf) (i : Nat) : Bool := match (c.gor i).stack with
  | [] => true
  | x :: s => x.isLock || match exec c.heap (c.gor i).ans x s with
    | .next .. => true
    | .panic => s.all fun y => match y with | .release _ d _ => d | _ => true

theorem calm_of_calmB {c : Conf} {i : Nat} (h : calmB c i = true) : Calm c i := by
  intro x s hst hl he m a hm
  unfold calmB at h
  rw [hst] at h
  simp only [hl, he, Bool.false_or, List.all_eq_true] at h
  have := h _ hm
  cases this

def legalB (h : Heap) : Call → Bool
  | .ds _ a => match h[a]? with | some (.ds _) | some (.dsTS _) => true | _ => false
  | .col _ a | .getData a _ | .getDataString a _ => match h[a]? with | some (.colTS _) => true | _ => false
  | .lang _ a => match h[a]? with | some (.lang _) => true | _ => false

theorem legal_of_legalB {h : Heap} {call : Call} (e : legalB h call = true) : call.Legal h := by
  cases call <;> simp only [legalB] at e <;> split at e <;> simp_all [Call.Legal]

def refs : Obj → List Nat
  | .dsTS (some b) => [b]
  | .ds m => m.filterMap fun p => ptrOf p.2
  | .col l | .colTS l => l.filterMap id
  | _ => []

def layeredB (r : Nat → Nat) (h : Heap) : Bool :=
  (List.range h.length).all fun a => match h[a]? with
    | some o => (refs o).all fun b => decide (r b < r a)
    | none => true

theorem layered_of_layeredB {r : Nat → Nat} {h : Heap} (e : layeredB r h = true) : Layered r h := by
  have key : ∀ a o b, h[a]? = some o → b ∈ refs o → r b < r a := by
    intro a o b ho hb
    simp only [layeredB, List.all_eq_true, List.mem_range] at e
    have hlt : a < h.length := by
      by_cases hlt : a < h.length
      · exact hlt
      · rw [List.getElem?_eq_none (Nat.le_of_not_lt hlt)] at ho; cases ho
    have := e a hlt
    rw [ho] at this
    simp only [List.all_eq_true, decide_eq_true_eq] at this
    exact this b hb
  intro a b hc
  cases hc with
  | wrapped ho => exact key _ _ _ ho (by simp [refs])
  | value ho hm => exact key _ _ _ ho (List.mem_filterMap.2 ⟨_, hm, rfl⟩)
  | element ho hm => exact key _ _ _ ho (List.mem_filterMap.2 ⟨_, hm, rfl⟩)
  | elementTS ho hm => exact key _ _ _ ho (List.mem_filterMap.2 ⟨_, hm, rfl⟩)

/-- What is done next. -/
inductive Act where
  | move (i : Nat)
  | begin (i : Nat) (call : Call)
  deriving DecidableEq, Repr

def Act.who : Act → Nat
  | .move i => i
  | .begin i _ => i

def act (c : Conf) : Act → Option Conf
  | .move i => tryMove c i
  | .begin i call => if (c.gor i).stack = [] ∧ legalB c.heap call = true then some { c with gor := c.go i call.code } else none

/-- The actions of the first `n` goroutines, `p` holding in every configuration. -/
def play (p : Conf → Bool) (n : Nat) : Conf → List Act → Option Conf
  | c, [] => if p c then some c else none
  | c, x :: xs =>
    if p c && decide (x.who < n) && (List.range n).all (calmB c) then
      match act c x with
      | some c' => play p n c' xs
      | none => none
    else none

theorem act_step {c c' : Conf} {x : Act} (h : act c x = some c') : ∃ who, Step c who c' := by
  cases x with
  | move i => exact ⟨_, .move (move_of_tryMove h)⟩
  | begin i call =>
    simp only [act] at h
    split at h
    · rename_i hc
      cases h
      exact ⟨_, .begin hc.1 (legal_of_legalB hc.2)⟩
    · cases h

theorem act_idle {c c' : Conf} {x : Act} (h : act c x = some c') {j : Nat} (hj : j ≠ x.who) : c'.gor j = c.gor j := by
  cases x with
  | move i => exact (move_of_tryMove h).gor_ne hj
  | begin i call =>
    simp only [act] at h
    split at h
    · cases h
      simp only [Conf.go]
      exact upd_ne _ _ hj
    · cases h

theorem play_run {P : Conf → Prop} {p : Conf → Bool} {n : Nat} (hp : ∀ c, (∀ i, n ≤ i → (c.gor i).stack = []) → p c = true → P c) {c0 : Conf} :
    ∀ {c c' : Conf} {xs : List Act}, (∀ i, n ≤ i → (c.gor i).stack = []) → (p c = true → Run P c0 c) → play p n c xs = some c' →
      Run P c0 c' ∧ ∀ i, n ≤ i → (c'.gor i).stack = [] := by
  intro c c' xs
  induction xs generalizing c with
  | nil =>
    intro hid hr h
    simp only [play] at h
    split at h
    · cases h; exact ⟨hr (by assumption), hid⟩
    · cases h
  | cons x xs ih =>
    intro hid hr h
    simp only [play] at h
    split at h
    · rename_i hc
      simp only [Bool.and_eq_true, decide_eq_true_eq, List.all_eq_true, List.mem_range] at hc
      obtain ⟨⟨h1, h2⟩, h3⟩ := hc
      cases ha : act c x with
      | none => rw [ha] at h; cases h
      | some c1 =>
        rw [ha] at h
        have hid1 : ∀ i, n ≤ i → (c1.gor i).stack = [] := by
          intro i hi
          rw [act_idle ha (by omega)]
          exact hid i hi
        refine ih (c := c1) hid1 ?_ h
        · intro hp1
          obtain ⟨who, hstep⟩ := act_step ha
          refine .step (hr h1) hstep ?_ (hp _ hid1 hp1)
          intro i _
          by_cases hi : i < n
          · exact calm_of_calmB (h3 i hi)
          · intro y s hst
            rw [hid i (by omega)] at hst
            cases hst
    · cases h

/-- Somebody is making a call and nobody can go on. -/
def stuckB (n : Nat) (c : Conf) : Bool :=
  (List.range n).all (fun i => (tryMove c i).isNone) && (List.range n).any fun i => !(c.gor i).stack.isEmpty

theorem deadlock_of_stuckB {n : Nat} {c : Conf} (hid : ∀ i, n ≤ i → (c.gor i).stack = []) (h : stuckB n c = true) : Deadlock c := by
  simp only [stuckB, Bool.and_eq_true, List.all_eq_true, List.mem_range, List.any_eq_true, Option.isNone_iff_eq_none,
    Bool.not_eq_true', List.isEmpty_eq_false_iff] at h
  refine ⟨?_, ?_⟩
  · obtain ⟨i, _, hi⟩ := h.2
    exact ⟨i, hi⟩
  · intro j c' hm
    by_cases hj : j < n
    · have := h.1 j hj
      rw [hm.tryMove] at this
      cases this
    · exact hm.busy (hid j (by omega))

theorem start_idle (h : Heap) (n : Nat) : ∀ i, n ≤ i → ((start h).gor i).stack = [] := fun _ _ => rfl

/-- The execution with these actions: what each goroutine does in turn, checked by evaluation. -/
theorem reach {p : Conf → Bool} {P : Conf → Prop} {n : Nat} (hp : ∀ c, (∀ i, n ≤ i → (c.gor i).stack = []) → p c = true → P c) {h : Heap}
    {xs : List Act} {q : Conf → Bool} (e : (play p n (start h) xs).any q = true) :
    ∃ c, Run P (start h) c ∧ (∀ i, n ≤ i → (c.gor i).stack = []) ∧ q c = true := by
  cases hpl : play p n (start h) xs with
  | none => rw [hpl] at e; cases e
  | some c =>
    rw [hpl] at e
    obtain ⟨h1, h2⟩ := play_run hp (c0 := start h) (start_idle h n) (fun h0 => .refl (hp _ (start_idle h n) h0)) hpl
    exact ⟨c, h1, h2, e⟩

/-- The same for any execution. -/
def playAny (n : Nat) : Conf → List Act → Option Conf
  | c, [] => some c
  | c, x :: xs => if x.who < n then (act c x).bind fun c' => playAny n c' xs else none

theorem reach_any {n : Nat} {h : Heap} {xs : List Act} {q : Conf → Bool} (e : (playAny n (start h) xs).any q = true) :
    ∃ c, Reaches (start h) c ∧ (∀ i, n ≤ i → (c.gor i).stack = []) ∧ q c = true := by
  have key : ∀ (xs : List Act) (c c' : Conf), Reaches (start h) c → (∀ i, n ≤ i → (c.gor i).stack = []) → playAny n c xs = some c' →
      Reaches (start h) c' ∧ ∀ i, n ≤ i → (c'.gor i).stack = [] := by
    intro xs
    induction xs with
    | nil => intro c c' h1 h2 h3; cases h3; exact ⟨h1, h2⟩
    | cons x xs ih =>
      intro c c' h1 h2 h3
      simp only [playAny] at h3
      split at h3
      · cases ha : act c x with
        | none => rw [ha] at h3; cases h3
        | some c1 =>
          rw [ha] at h3
          obtain ⟨who, hs⟩ := act_step ha
          refine ih c1 c' (.step h1 hs) ?_ h3
          intro i hi
          rw [act_idle ha (by omega)]
          exact h2 i hi
      · cases h3
  cases hpl : playAny n (start h) xs with
  | none => rw [hpl] at e; cases e
  | some c =>
    rw [hpl] at e
    obtain ⟨h1, h2⟩ := key xs _ c .refl (start_idle h n) hpl
    exact ⟨c, h1, h2, e⟩

/-- Nothing but the wrapper `a` refers to the dataset `t`, and none of the first `n` goroutines calls a method of `t`. -/
def privateB (a t n : Nat) (c : Conf) : Bool :=
  (match c.heap[t]? with | some (.ds _) => true | _ => false) && decide (c.heap[a]? = some (.dsTS (some t))) &&
  ((List.range c.heap.length).all fun b => b == a || match c.heap[b]? with
    | some o => !(refs o).contains t
    | none => true) &&
  (List.range n).all fun i => match (c.gor i).stack with | [.call _ b] => b != t | _ => true

theorem contains_refs {h : Heap} {b t : Nat} (hc : Contains h b t) : ∃ o, h[b]? = some o ∧ t ∈ refs o := by
  cases hc with
  | wrapped ho => exact ⟨_, ho, by simp [refs]⟩
  | value ho hm => exact ⟨_, ho, List.mem_filterMap.2 ⟨_, hm, rfl⟩⟩
  | element ho hm => exact ⟨_, ho, List.mem_filterMap.2 ⟨_, hm, rfl⟩⟩
  | elementTS ho hm => exact ⟨_, ho, List.mem_filterMap.2 ⟨_, hm, rfl⟩⟩

theorem private_of_privateB {a t n : Nat} {c : Conf} (hid : ∀ i, n ≤ i → (c.gor i).stack = []) (h : privateB a t n c = true) : Private a t c := by
  simp only [privateB, Bool.and_eq_true, decide_eq_true_eq, List.all_eq_true, List.mem_range, Bool.or_eq_true, beq_iff_eq] at h
  obtain ⟨⟨⟨h1, h2⟩, h3⟩, h4⟩ := h
  refine ⟨?_, h2, ?_, ?_⟩
  · split at h1
    · exact ⟨_, by assumption⟩
    · cases h1
  · intro b hb
    obtain ⟨o, ho, hm⟩ := contains_refs hb
    have hlt : b < c.heap.length := (List.getElem?_eq_some_iff.1 ho).1
    rcases h3 b hlt with h | h
    · exact h
    · rw [ho] at h
      simp only [Bool.not_eq_true', List.contains_eq_mem, decide_eq_false_iff_not] at h
      exact absurd hm h
  · intro i op hst
    by_cases hi : i < n
    · have := h4 i hi
      rw [hst] at this
      simp at this
    · rw [hid i (by omega)] at hst
      cases hst

end Xcore.Nested
