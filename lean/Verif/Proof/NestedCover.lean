import Verif.Proof.NestedSched

/-! # What is done under which lock -/

namespace Xcore.Nested

open Dataset Lock

/-- The instruction is one to be done under the lock of `b` taken in mode `m`. -/
def Instr.under (m : Mode) (b : Nat) : Instr → Prop
  | .body op b' => b' = b ∧ op.mode = m
  | .elem locked b' _ _ => locked = true ∧ b' = b ∧ .read = m
  | .elems b' | .size b' _ | .pick b' _ _ => b' = b ∧ .read = m
  | .change op b' => b' = b ∧ (colMode op).1 = m
  | .skip => True
  | _ => False

/-- The lock of `b` is released later. -/
def Later (m : Mode) (b : Nat) (s : List Instr) : Prop := ∃ d, Instr.release m d b ∈ s

/-- The instruction is covered by the locks released later. -/
def Covered (h : Heap) (x : Instr) (s : List Instr) : Prop :=
  match x with
  | .body op b => Later op.mode b s
  | .elem true b _ _ => Later .read b s
  | .elem false b _ _ => ∃ l, h[b]? = some (.col l)
  | .elems b | .size b _ | .pick b _ _ => Later .read b s
  | .change op b => Later (colMode op).1 b s
  | .enter m _ b x => x.under m b
  | .await _ b x => x.under .write b
  | _ => True

/-- Every instruction of the stack is covered, and every call on `t` by the lock of `a`. -/
def Cov (h : Heap) (a : Nat) (t : Option Nat) : List Instr → Prop
  | [] => True
  | x :: s => (Covered h x s ∧ ∀ op b, x = .call op b → t = some b → Later op.mode a s) ∧ Cov h a t s

theorem Later.mono {m : Mode} {b : Nat} {s s' : List Instr} (hs : ∀ x ∈ s, x ∈ s') (h : Later m b s) : Later m b s' := by
  obtain ⟨d, hd⟩ := h
  exact ⟨d, hs _ hd⟩

theorem Covered.mono {h : Heap} {x : Instr} {s s' : List Instr} (hs : ∀ x ∈ s, x ∈ s') (hc : Covered h x s) : Covered h x s' := by
  unfold Covered at hc ⊢
  split <;> simp_all only <;> exact Later.mono hs hc

/-- Plain collections stay plain collections. -/
def Plain (h h' : Heap) : Prop := ∀ (b : Nat) (l : List (Option Nat)), h[b]? = some (.col l) → ∃ l', h'[b]? = some (.col l')

theorem Covered.heap {h h' : Heap} (hp : Plain h h') {x : Instr} {s : List Instr} (hc : Covered h x s) : Covered h' x s := by
  unfold Covered at hc ⊢
  split <;> simp_all only
  obtain ⟨l, hl⟩ := hc
  exact hp _ _ hl

theorem Cov.heap {h h' : Heap} (hp : Plain h h') {a : Nat} {t : Option Nat} {s : List Instr} (hc : Cov h a t s) : Cov h' a t s := by
  induction s with
  | nil => trivial
  | cons x s ih => exact ⟨⟨hc.1.1.heap hp, hc.1.2⟩, ih hc.2⟩

/-- An instruction that needs no lock. -/
def Free (h : Heap) (t : Option Nat) (x : Instr) : Prop := (∀ op b, x = .call op b → t ≠ some b) ∧ ∀ s, Covered h x s

theorem Cov.append {h : Heap} {a : Nat} {t : Option Nat} {xs s : List Instr} (hf : ∀ x ∈ xs, Free h t x) (hc : Cov h a t s) : Cov h a t (xs ++ s) := by
  induction xs with
  | nil => exact hc
  | cons x xs ih =>
    refine ⟨⟨(hf x (by simp)).2 _, fun op b e e2 => absurd e2 ((hf x (by simp)).1 op b e)⟩, ih fun y hy => hf y (by simp [hy])⟩

theorem Cov.cons {h : Heap} {a : Nat} {t : Option Nat} {x : Instr} {s : List Instr} (hf : Free h t x) (hc : Cov h a t s) : Cov h a t (x :: s) :=
  Cov.append (xs := [x]) (by simpa using hf) hc

theorem Cov.andThen {h : Heap} {a : Nat} {t : Option Nat} {xs s : List Instr} (hf : ∀ x ∈ xs, Free h t x) (hc : Cov h a t s) : Cov h a t (andThen xs s) := by
  cases s with
  | nil => simpa [Nested.andThen] using Cov.append hf hc
  | cons x s =>
    refine ⟨⟨hc.1.1.mono fun y hy => List.mem_append.2 (Or.inr hy), fun op b e e2 => (hc.1.2 op b e e2).mono fun y hy => List.mem_append.2 (Or.inr hy)⟩,
      Cov.append hf hc.2⟩

theorem free_call {h : Heap} {t : Option Nat} {op : Op} {b : Nat} (hb : t ≠ some b) : Free h t (.call op b) :=
  ⟨fun op' b' e => by cases e; exact hb, fun _ => trivial⟩

theorem Plain.refl (h : Heap) : Plain h h := fun _ l hl => ⟨l, hl⟩

theorem Plain.set {h : Heap} {a : Nat} {o : Obj} (ho : ∀ l, h[a]? ≠ some (.col l)) : Plain h (h.set a o) := by
  intro b l hb
  by_cases e : a = b
  · subst e; exact absurd hb (ho l)
  · exact ⟨l, by rw [List.getElem?_set_ne e]; exact hb⟩

theorem Plain.setElems (h : Heap) (c : Nat) (l : List (Option Nat)) : Plain h (setElems h c l) := by
  intro b l0 hb
  unfold Dataset.setElems
  have hlt : b < h.length := by
    by_cases hlt : b < h.length
    · exact hlt
    · rw [List.getElem?_eq_none (Nat.le_of_not_lt hlt)] at hb; cases hb
  by_cases e : c = b
  · subst e
    rw [hb]
    exact ⟨l, by simp [hlt]⟩
  · split
    · exact ⟨l0, by rw [List.getElem?_set_ne e]; exact hb⟩
    · exact ⟨l0, by rw [List.getElem?_set_ne e]; exact hb⟩

/-- Nothing but the wrapper `a` refers to the dataset `t`. -/
structure Own (h : Heap) (a : Nat) (t : Option Nat) : Prop where
  wrapper : t ≠ none → h[a]? = some (.dsTS t)
  only : ∀ b d, t = some d → Contains h b d → b = a

theorem Own.value {h : Heap} {a : Nat} {t : Option Nat} (ho : Own h a t) {b : Nat} {m : AMap Val} (hm : h[b]? = some (.ds m)) {k : Str} {v : Nat}
    (hv : (k, Val.ptr v) ∈ m) : t ≠ some v := by
  rintro rfl
  have := ho.only b v rfl (.value hm hv)
  subst this
  rw [ho.wrapper nofun] at hm
  cases hm

theorem Own.element {h : Heap} {a : Nat} {t : Option Nat} (ho : Own h a t) {c : Nat} {v : Nat} (hv : some v ∈ Dataset.elems h c) : t ≠ some v := by
  rintro rfl
  have hc := elems_contains hv
  have := ho.only c v rfl hc
  subst this
  unfold Dataset.elems at hv
  rw [ho.wrapper nofun] at hv
  cases hv

/-- The answer is not `t`. -/
def Apart (t : Option Nat) (ans : Option Val) : Prop := ∀ b, ans = some (.ptr b) → t ≠ some b

theorem getStep_cov {h : Heap} {a : Nat} {t : Option Nat} (ho : Own h a t) {ans : Option Val} {b : Nat} {m : AMap Val} (hm : h[b]? = some (.ds m))
    {s s' : List Instr} {segs : List Str} {h' : Heap} {ans' : Option Val} (hans : Apart t ans) (hc : Cov h a t s)
    (e : getStep h ans m s segs = .next h' ans' s') : Cov h a t s' ∧ Apart t ans' := by
  have hval : ∀ k v, m.get k = some (.ptr v) → t ≠ some v := fun k v hg => ho.value hm (AMap.mem_of_get hg)
  have hget : ∀ k, Apart t (m.get k) := fun k b hg => hval k b hg
  unfold getStep at e
  split at e
  · cases e; exact ⟨hc, nofun⟩
  · cases e; exact ⟨hc, hget _⟩
  · rename_i p p2 rest
    split at e
    · cases e; exact ⟨hc, nofun⟩
    · rename_i v hv
      split at e
      · rename_i b' hb
        cases e
        have hvb : v = .ptr b' := by
          cases v <;> simp [asDataset] at hb
          split at hb <;> simp at hb <;> rw [hb]
        subst hvb
        exact ⟨.cons (free_call (hval _ _ hv)) hc, hans⟩
      · split at e
        · rename_i c hcc
          split at e
          · cases e; exact ⟨hc, nofun⟩
          · split at e
            · cases e
              exact ⟨.cons ⟨nofun, fun _ => ⟨rfl, rfl, rfl⟩⟩ hc, hans⟩
            · rename_i hnot
              cases e
              refine ⟨.cons ⟨nofun, fun _ => ?_⟩ hc, hans⟩
              cases v <;> simp [asCollection] at hcc
              split at hcc <;> simp at hcc
              · subst hcc; exact ⟨_, by assumption⟩
              · subst hcc; exact absurd (by assumption) (hnot _)
        · cases e; exact ⟨hc, hget _⟩

theorem exec_cov {h : Heap} {a : Nat} {t : Option Nat} (ho : Own h a t) {ans : Option Val} {x : Instr} {s s' : List Instr} {h' : Heap} {ans' : Option Val}
    (hans : Apart t ans) (hc : Cov h a t (x :: s)) (e : exec h ans x s = .next h' ans' s') :
    Cov h a t s' ∧ Apart t ans' ∧ Plain h h' := by
  obtain ⟨⟨hx, hcall⟩, hs⟩ := hc
  have hp := Plain.refl h
  cases x with
  | call op b =>
    simp only [exec, callStep] at e
    split at e
    · cases e
      exact ⟨.cons ⟨nofun, fun _ => ⟨rfl, rfl⟩⟩ hs, hans, hp⟩
    · rename_i m hm
      cases op with
      | get segs =>
        obtain ⟨rfl, _⟩ := getStep_grows e
        have := getStep_cov ho hm hans hs e
        exact ⟨this.1, this.2, hp⟩
      | getString segs =>
        cases e
        refine ⟨⟨⟨trivial, fun op b e e2 => ?_⟩, ⟨trivial, nofun⟩, hs⟩, hans, hp⟩
        cases e
        exact (hcall _ _ rfl e2).mono fun y hy => by simp [hy]
      | set k v => cases e; exact ⟨hs, hans, .set (by rw [hm]; nofun)⟩
      | del k => cases e; exact ⟨hs, hans, .set (by rw [hm]; nofun)⟩
      | print =>
        cases e
        refine ⟨.append ?_ hs, hans, hp⟩
        intro y hy
        obtain ⟨v, hv, rfl⟩ := List.mem_map.1 hy
        obtain ⟨⟨k, v'⟩, hm', hpv⟩ := List.mem_filterMap.1 hv
        cases v' <;> simp [ptrOf] at hpv
        subst hpv
        exact free_call (ho.value hm hm')
      | clone =>
        cases e
        refine ⟨.append ?_ hs, hans, hp⟩
        intro y hy
        obtain ⟨v, hv, rfl⟩ := List.mem_map.1 hy
        obtain ⟨⟨k, v'⟩, hm', hpv⟩ := List.mem_filterMap.1 hv
        obtain rfl := cloneable_ptr hpv
        exact free_call (ho.value hm hm')
    · rename_i l hl
      split at e
      · cases e
        refine ⟨.append ?_ hs, hans, hp⟩
        intro y hy
        obtain ⟨v, hv, rfl⟩ := List.mem_map.1 hy
        obtain ⟨o, hov, rfl⟩ := List.mem_filterMap.1 hv
        exact free_call (ho.element (c := b) (by unfold Dataset.elems; rw [hl]; exact hov))
      · cases e
        refine ⟨.append ?_ hs, hans, hp⟩
        intro y hy
        obtain ⟨o, hov, rfl⟩ := List.mem_map.1 hy
        cases o with
        | none => exact ⟨nofun, fun _ => trivial⟩
        | some v => exact free_call (ho.element (c := b) (by unfold Dataset.elems; rw [hl]; exact hov))
      · cases e; exact ⟨hs, nofun, hp⟩
    · rename_i l hl
      split at e
      · cases e
        exact ⟨.cons ⟨nofun, fun _ => ⟨rfl, rfl⟩⟩ hs, hans, hp⟩
      · cases e
        refine ⟨.append ?_ hs, hans, hp⟩
        intro y hy
        obtain ⟨o, hov, rfl⟩ := List.mem_map.1 hy
        cases o with
        | none => exact ⟨nofun, fun _ => trivial⟩
        | some v => exact free_call (ho.element (c := b) (by unfold Dataset.elems; rw [hl]; exact hov))
      · cases e; exact ⟨hs, nofun, hp⟩
    · split at e
      · cases e; exact ⟨.cons ⟨nofun, fun _ => trivial⟩ hs, hans, hp⟩
      · cases e; exact ⟨hs, nofun, hp⟩
    · cases e; exact ⟨hs, nofun, hp⟩
  | body op b =>
    simp only [exec] at e
    split at e
    · rename_i v hv
      cases e
      refine ⟨⟨⟨trivial, fun op' b' e' e2 => ?_⟩, hs⟩, hans, hp⟩
      cases e'
      have := ho.only b _ e2 (.wrapped hv)
      subst this
      exact hx
    · split at e
      · cases e; exact ⟨hs, hans, hp⟩
      · cases e
  | elem locked c i rest =>
    simp only [exec] at e
    split at e
    · rename_i v hv
      have hvt := ho.element (colGet_mem hv)
      split at e
      · cases e; exact ⟨hs, fun b e => by cases e; exact hvt, hp⟩
      · cases e
        cases locked
        · exact ⟨.cons (free_call hvt) hs, hans, hp⟩
        · exact ⟨.andThen (xs := [_]) (by simpa using free_call hvt) hs, hans, hp⟩
    · cases e; exact ⟨hs, nofun, hp⟩
  | elems c =>
    cases e
    refine ⟨.append ?_ hs, hans, hp⟩
    intro y hy
    obtain ⟨v, hv, rfl⟩ := List.mem_map.1 hy
    obtain ⟨o, hov, rfl⟩ := List.mem_filterMap.1 hv
    exact free_call (ho.element hov)
  | printAnswer b =>
    simp only [exec] at e
    split at e
    · rename_i v
      cases e
      exact ⟨.cons (free_call (hans _ rfl)) hs, hans, hp⟩
    · cases e; exact ⟨hs, hans, hp⟩
  | change op c =>
    have hel : ∀ d : Option Nat, d ∈ Dataset.elems h c → Apart t (some (elemVal d)) := by
      intro d hd b e
      cases d with
      | none => cases e
      | some v => cases e; exact ho.element hd
    cases op with
    | unshift d => cases e; exact ⟨hs, hans, .setElems _ _ _⟩
    | push d => cases e; exact ⟨hs, hans, .setElems _ _ _⟩
    | shift =>
      simp only [exec, changeStep, shift] at e
      cases hl : Dataset.elems h c with
      | nil => rw [hl] at e; cases e
      | cons d l =>
        rw [hl] at e
        cases e
        exact ⟨hs, hel d (by rw [hl]; simp), .setElems _ _ _⟩
    | pop =>
      simp only [exec, changeStep, pop] at e
      cases hl : (Dataset.elems h c).getLast? with
      | none => rw [hl] at e; cases e
      | some d =>
        rw [hl] at e
        cases e
        exact ⟨hs, hel d (List.mem_of_getLast? hl), .setElems _ _ _⟩
    | count => cases e; exact ⟨hs, nofun, hp⟩
    | get i =>
      cases e
      refine ⟨hs, ?_, hp⟩
      cases hg : colGetAt h c i with
      | none => nofun
      | some d => exact hel d (colGet_mem hg)
  | size c key =>
    cases e
    exact ⟨.andThen (xs := [_]) (by simp only [List.mem_singleton, forall_eq]; exact ⟨nofun, fun _ => trivial⟩) hs, hans, hp⟩
  | scan c n key =>
    cases n with
    | zero => cases e; exact ⟨hs, nofun, hp⟩
    | succ n => cases e; exact ⟨.cons ⟨nofun, fun _ => ⟨rfl, rfl⟩⟩ hs, hans, hp⟩
  | pick c n key =>
    simp only [exec] at e
    split at e
    · cases e
    · cases e
      exact ⟨.andThen (xs := [_]) (by simp only [List.mem_singleton, forall_eq]; exact ⟨nofun, fun _ => trivial⟩) hs, hans, hp⟩
    · rename_i v hv
      cases e
      refine ⟨.andThen (xs := [_, _]) ?_ hs, hans, hp⟩
      intro y hy
      simp only [List.mem_cons, List.not_mem_nil, or_false] at hy
      rcases hy with rfl | rfl
      · exact free_call (ho.element (List.mem_of_getElem? hv))
      · exact ⟨nofun, fun _ => trivial⟩
  | check c n key =>
    simp only [exec] at e
    split at e
    · cases e; exact ⟨hs, hans, hp⟩
    · cases e; exact ⟨.cons ⟨nofun, fun _ => trivial⟩ hs, hans, hp⟩
  | skip => cases e; exact ⟨hs, hans, hp⟩
  | fail => cases e
  | enter => cases e
  | await => cases e
  | release => cases e

/-- Every goroutine's stack is covered, and none has the dataset `t` in hand. -/
def Guarded (a : Nat) (t : Option Nat) (c : Conf) : Prop := ∀ i, Cov c.heap a t (c.gor i).stack ∧ Apart t (c.gor i).ans

theorem Guarded.set {a : Nat} {t : Option Nat} {c : Conf} (h : Guarded a t c) {i : Nat} {h' : Heap} (hp : Plain c.heap h') {l' : Nat → Rw} {s : List Instr}
    {ans : Option Val} (hi : Cov c.heap a t s ∧ Apart t ans) : Guarded a t ⟨h', l', upd c.gor i ⟨s, ans⟩⟩ := by
  intro j
  by_cases e : j = i
  · subst e
    simp only [upd_self]
    exact ⟨hi.1.heap hp, hi.2⟩
  · simp only [upd_ne _ _ e]
    exact ⟨(h j).1.heap hp, (h j).2⟩

theorem cov_releases {h : Heap} {a : Nat} {t : Option Nat} (s : List Instr) : Cov h a t (unwind s) := by
  have := Cov.append (h := h) (a := a) (t := t) (xs := unwind s) (s := []) (by
    intro x hx
    obtain ⟨m, b, rfl⟩ := unwind_release hx
    exact ⟨nofun, fun _ => trivial⟩) trivial
  simpa using this

theorem covered_under {h : Heap} {m : Mode} {b : Nat} {x : Instr} {s : List Instr} (hu : x.under m b) (hl : Later m b s) :
    Covered h x s ∧ ∀ op t, x ≠ .call op t := by
  cases x <;> simp only [Instr.under] at hu <;> try exact hu.elim
  case elem locked c i rest =>
    obtain ⟨rfl, rfl, rfl⟩ := hu
    exact ⟨hl, nofun⟩
  case skip => exact ⟨trivial, nofun⟩
  all_goals
    obtain ⟨rfl, rfl⟩ := hu
    exact ⟨hl, nofun⟩

theorem Guarded.move {a : Nat} {t : Option Nat} {c c' : Conf} {i : Nat} (h : Guarded a t c) (ho : Own c.heap a t) (hm : Move c i c') : Guarded a t c' := by
  obtain ⟨hcov, hans⟩ := h i
  have hp := Plain.refl c.heap
  cases hm with
  | run hst hl he =>
    rw [hst] at hcov
    have := exec_cov ho hans hcov he
    exact h.set this.2.2 ⟨this.1, this.2.1⟩
  | panic hst hl he => exact h.set hp ⟨cov_releases _, hans⟩
  | @rlock d b x s hst hw hpe =>
    rw [hst] at hcov
    have hu : x.under .read b := hcov.1.1
    have := covered_under (h := c.heap) (s := .release .read d b :: s) hu ⟨d, by simp⟩
    exact h.set hp ⟨⟨⟨this.1, fun op b e => absurd e (this.2 op b)⟩, ⟨trivial, nofun⟩, hcov.2⟩, hans⟩
  | @announce d b x s hst hw hpe =>
    rw [hst] at hcov
    exact h.set hp ⟨⟨⟨hcov.1.1, nofun⟩, hcov.2⟩, hans⟩
  | @lock d b x s hst hr =>
    rw [hst] at hcov
    have hu : x.under .write b := hcov.1.1
    have := covered_under (h := c.heap) (s := .release .write d b :: s) hu ⟨d, by simp⟩
    exact h.set hp ⟨⟨⟨this.1, fun op b e => absurd e (this.2 op b)⟩, ⟨trivial, nofun⟩, hcov.2⟩, hans⟩
  | runlock hst => rw [hst] at hcov; exact h.set hp ⟨hcov.2, hans⟩
  | unlock hst => rw [hst] at hcov; exact h.set hp ⟨hcov.2, hans⟩

theorem cov_code {h : Heap} {a : Nat} {t : Option Nat} (call : Call) (hn : ∀ op b, call.code = [.call op b] → t ≠ some b) : Cov h a t call.code := by
  cases call with
  | ds op b => exact ⟨⟨trivial, fun op' b' e e2 => absurd e2 (hn op' b' (by cases e; rfl))⟩, trivial⟩
  | col op b => exact ⟨⟨⟨rfl, rfl⟩, nofun⟩, trivial⟩
  | getData b key => exact ⟨⟨⟨rfl, rfl⟩, nofun⟩, trivial⟩
  | getDataString b key => exact ⟨⟨⟨rfl, rfl⟩, nofun⟩, ⟨trivial, nofun⟩, trivial⟩
  | lang m b => exact ⟨⟨trivial, nofun⟩, trivial⟩

theorem Guarded.run {a : Nat} {t : Option Nat} {P : Conf → Prop} (hP : ∀ c, P c → Own c.heap a t ∧ ∀ i op b, (c.gor i).stack = [.call op b] → t ≠ some b)
    {h0 : Heap} {c : Conf} (h : Run P (Nested.start h0) c) : Guarded a t c ∧ P c := by
  induction h with
  | refl hp => exact ⟨fun i => ⟨trivial, nofun⟩, hp⟩
  | @step c c' who hr hs hc hp ih =>
    refine ⟨?_, hp⟩
    cases hs with
    | move hm => exact ih.1.move (hP _ ih.2).1 hm
    | @begin i call hi _ =>
      refine ih.1.set (.refl _) ⟨cov_code _ ?_, (ih.1 i).2⟩
      intro op b e
      exact (hP _ hp).2 i op b (by simp only [Conf.go, upd_self]; exact e)
    | @alloc o =>
      intro i
      refine ⟨(ih.1 i).1.heap ?_, (ih.1 i).2⟩
      intro b l hb
      exact ⟨l, by rw [List.getElem?_append_left]; · exact hb
                   · exact (List.getElem?_eq_some_iff.1 hb).1⟩

theorem guarded_private {a t : Nat} {h0 : Heap} {c : Conf} (h : Run (Private a t) (Nested.start h0) c) : Guarded a (some t) c := by
  refine (Guarded.run (fun c hp => ⟨⟨fun _ => hp.2.1, ?_⟩, ?_⟩) h).1
  · intro b d e hb; cases e; exact hp.2.2.1 b hb
  · intro i op b hst e; cases e; exact hp.2.2.2 i op hst

theorem guarded_any {P : Conf → Prop} {h0 : Heap} {c : Conf} (h : Run P (Nested.start h0) c) : Guarded 0 none c :=
  (Guarded.run (fun c _ => ⟨⟨fun e => absurd rfl e, nofun⟩, nofun⟩) h).1

/-- Who is to release a lock holds it. -/
theorem holds_of_later {c : Conf} (hh : Held c) {i : Nat} {m : Mode} {b : Nat} (h : Later m b (c.gor i).stack) :
    match m with
    | .read => i ∈ (c.locks b).readers
    | .write => (c.locks b).writer = some i := by
  obtain ⟨d, hd⟩ := h
  have hpos : 0 < (c.gor i).stack.countP (isRel m b) := List.countP_pos_iff.2 ⟨_, hd, by simp [isRel]⟩
  cases m with
  | read =>
    rw [← hh.readers b i] at hpos
    exact List.count_pos_iff.1 hpos
  | write =>
    rw [hh.writer b i] at hpos
    simp only
    split at hpos
    · assumption
    · omega

theorem Holds.excl {c : Conf} (hh : Held c) {i j a : Nat} (hij : j ≠ i) {w w' : Bool} (hi : Holds c i a w) (hj : Holds c j a w') : w = false ∧ w' = false := by
  have key : ∀ i j, j ≠ i → (c.locks a).writer = some i → Holds c j a w' ∨ Holds c j a w → False := by
    intro i j hij hw h
    have hr := (hh.excl a i hw).1
    have hno : ∀ b, ¬ Holds c j a b := by
      intro b hb
      cases b with
      | false =>
        rcases hb with hb | hb
        · rw [hr] at hb; cases hb
        · rw [hw] at hb; cases hb; exact hij rfl
      | true =>
        have hb : (c.locks a).writer = some j := hb
        rw [hw] at hb; cases hb; exact hij rfl
    rcases h with h | h <;> exact hno _ h
  constructor
  · cases w with
    | false => rfl
    | true => exact (key i j hij hi (Or.inl hj)).elim
  · cases w' with
    | false => rfl
    | true => exact (key j i (Ne.symm hij) hj (Or.inr hi)).elim

theorem accesses_holds {a t : Nat} {h0 : Heap} {c : Conf} (h : Run (Private a t) (Nested.start h0) c) {i : Nat} {op : Op}
    (ha : Accesses c i op t) : Holds c i a op.writes := by
  obtain ⟨s, hst⟩ := ha
  have hc := (guarded_private h i).1
  rw [hst] at hc
  have hl := (hc.1.2 op t rfl rfl).mono (s' := (c.gor i).stack) (by rw [hst]; intro x hx; simp [hx])
  have := holds_of_later (Held.run h) hl
  cases op <;> first | exact Or.inl this | exact this

theorem touches_holds {P : Conf → Prop} {h0 : Heap} {c : Conf} (h : Run P (Nested.start h0) c) {i col : Nat} {w : Bool}
    (hcol : ∃ l, c.heap[col]? = some (.colTS l)) (hno : ∀ s, (c.gor i).stack ≠ .call .clone col :: s) (ht : Touches c i col w) : Holds c i col w := by
  have hc := (guarded_any h i).1
  have hmono : ∀ {x : Instr} {s : List Instr} {m : Mode} {b : Nat}, (c.gor i).stack = x :: s → Later m b s → Later m b (c.gor i).stack := by
    intro x s m b hst hl
    exact hl.mono (by rw [hst]; intro x hx; simp [hx])
  cases ht with
  | @elem locked n rest s hst =>
    rw [hst] at hc
    cases locked with
    | true => exact Or.inl (holds_of_later (Held.run h) (hmono hst hc.1.1))
    | false =>
      obtain ⟨l, hl⟩ := hc.1.1
      obtain ⟨l', hl'⟩ := hcol
      rw [hl'] at hl
      cases hl
  | elems hst => rw [hst] at hc; exact Or.inl (holds_of_later (Held.run h) (hmono hst hc.1.1))
  | size hst => rw [hst] at hc; exact Or.inl (holds_of_later (Held.run h) (hmono hst hc.1.1))
  | pick hst => rw [hst] at hc; exact Or.inl (holds_of_later (Held.run h) (hmono hst hc.1.1))
  | @change op s hst =>
    rw [hst] at hc
    have := holds_of_later (Held.run h) (hmono hst hc.1.1)
    cases op <;> first | exact Or.inl this | exact this
  | clone hst => exact absurd hst (hno _)

end Xcore.Nested
