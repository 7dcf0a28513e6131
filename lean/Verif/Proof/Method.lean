import Verif.Proof.LockProgress
import Verif.Spec.Method

/-! # Methods are atomic -/

namespace Xcore.Lock

variable {σ ρ Ω Op : Type}

/-- While a method runs, what remains to be run has the same result. -/
theorem accesses_run {m : Method σ ρ Ω} {s s' : σ} {l l' : Frame ρ Ω} (h : Accesses m.section.step s l s' l') :
    l'.outs = l.outs ∧ runCode (m.code.drop l'.pc) s' l'.reg = runCode (m.code.drop l.pc) s l.reg := by
  induction h with
  | refl => exact ⟨rfl, rfl⟩
  | @tail s1 l1 s2 l2 _ hs ih =>
    simp only [Method.section] at hs
    cases e : m.code[l1.pc]? with
    | none => rw [e] at hs; cases hs
    | some f =>
      rw [e] at hs
      simp only at hs
      obtain ⟨hlt, hf⟩ := List.getElem?_eq_some_iff.1 e
      have hd : m.code.drop l1.pc = f :: m.code.drop (l1.pc + 1) := by rw [List.drop_eq_getElem_cons hlt, hf]
      cases e2 : f s1 l1.reg with
      | panic => rw [e2] at hs; cases hs
      | diverge => rw [e2] at hs; cases hs; exact ih
      | ok r =>
        rw [e2] at hs
        cases hs
        refine ⟨ih.1, ?_⟩
        rw [← ih.2, hd]
        simp only [runCode, e2]

/-- A call executed alone does what `alone` says. -/
theorem exec_alone {m : Method σ ρ Ω} {s s' : σ} {l l' : Frame ρ Ω} (h : Exec m.section s l s' l') :
    (m.alone s).1 = s' ∧ (m.alone s).2 ≠ .diverge ∧ l'.outs = l.outs ++ [answer (m.alone s).2] := by
  cases h with
  | @done l1 _ ha hd =>
    obtain ⟨h1, h2⟩ := accesses_run ha
    simp only [Method.section] at hd h1 h2
    cases e : m.code[l1.pc]? with
    | some f => rw [e] at hd; simp only at hd; cases e2 : f s' l1.reg <;> rw [e2] at hd <;> cases hd
    | none =>
      rw [e] at hd
      cases hd
      rw [List.getElem?_eq_none_iff] at e
      rw [List.drop_eq_nil_of_le e] at h2
      simp only [List.drop_zero] at h2
      simp only [Method.alone, ← h2, runCode, Res.map, answer, h1]
      simp
  | @panic l1 ha hd =>
    obtain ⟨h1, h2⟩ := accesses_run ha
    simp only [Method.section] at hd h1 h2
    cases e : m.code[l1.pc]? with
    | none => rw [e] at hd; cases hd
    | some f =>
      rw [e] at hd
      simp only at hd
      obtain ⟨hlt, hf⟩ := List.getElem?_eq_some_iff.1 e
      have hdr : m.code.drop l1.pc = f :: m.code.drop (l1.pc + 1) := by rw [List.drop_eq_getElem_cons hlt, hf]
      cases e2 : f s' l1.reg with
      | ok r => rw [e2] at hd; cases hd
      | diverge => rw [e2] at hd; cases hd
      | panic =>
        rw [hdr] at h2
        simp only [List.drop_zero, runCode, e2] at h2
        simp only [Method.alone, ← h2, Res.map, answer, Method.section, h1]
        simp

theorem runCalls_snoc (seq : Op → σ → σ × Res Ω) (ops : List Op) (op : Op) : ∀ s, runCalls seq s (ops ++ [op]) =
    ((seq op (runCalls seq s ops).1).1, (runCalls seq s ops).2 ++ [answer (seq op (runCalls seq s ops).1).2]) := by
  induction ops with
  | nil => intro s; rfl
  | cons o ops ih => intro s; simp only [List.cons_append, runCalls, ih]

theorem runCalls_length (seq : Op → σ → σ × Res Ω) (ops : List Op) : ∀ s, (runCalls seq s ops).2.length = ops.length := by
  induction ops with
  | nil => intro s; rfl
  | cons o ops ih => intro s; simp [runCalls, ih]

theorem answersTo_snoc (seq : Op → σ → σ × Res Ω) (s : σ) (hist : List (Nat × Op)) (i j : Nat) (op : Op) :
    answersTo seq s (hist ++ [(j, op)]) i =
      answersTo seq s hist i ++ (if j = i then [answer (seq op (runCalls seq s (hist.map Prod.snd)).1).2] else []) := by
  unfold answersTo
  simp only [List.map_append, List.map_cons, List.map_nil, runCalls_snoc]
  rw [List.zip_append (by simp [runCalls_length])]
  simp only [List.zip_cons_cons, List.zip_nil_left, List.filter_append, List.map_append]
  by_cases h : j = i <;> simp [h]

/-- Which calls the ended sections were. -/
theorem exists_history {α β : Type} (f : α → β) : ∀ (log : List (Nat × β)) (pre : Nat → List α),
    (∀ i, (log.filter fun p => p.1 = i).map Prod.snd = (pre i).map f) →
    ∃ hist : List (Nat × α), log = hist.map (fun p => (p.1, f p.2)) ∧ ∀ i, (hist.filter fun p => p.1 = i).map Prod.snd = pre i := by
  intro log
  induction log with
  | nil =>
    intro pre h
    refine ⟨[], rfl, fun i => ?_⟩
    have := h i
    simp only [List.filter_nil, List.map_nil] at this
    have := List.map_eq_nil_iff.1 this.symm
    simp [this]
  | cons p log ih =>
    obtain ⟨j, sec⟩ := p
    intro pre h
    have hj := h j
    simp only [List.filter_cons, decide_true, if_true, List.map_cons] at hj
    cases e : pre j with
    | nil => rw [e] at hj; cases hj
    | cons op tl =>
      rw [e] at hj
      simp only [List.map_cons, List.cons.injEq] at hj
      obtain ⟨hist, h1, h2⟩ := ih (upd pre j tl) (by
        intro i
        by_cases hi : i = j
        · subst hi; simp only [upd_self]; exact hj.2
        · have := h i
          simp only [upd_ne _ _ hi]
          simpa [show ¬ j = i from fun e => hi e.symm] using this)
      refine ⟨(j, op) :: hist, by rw [h1, hj.1]; rfl, ?_⟩
      intro i
      have := h2 i
      by_cases hi : i = j
      · subst hi; simp only [upd_self] at this; simp [this, e]
      · simp only [upd_ne _ _ hi] at this
        simp [show ¬ j = i from fun e => hi e.symm, this]

theorem replay_history (meth : Op → Method σ ρ Ω) (seq : Op → σ → σ × Res Ω) (hseq : ∀ op s, (meth op).alone s = seq op s) (s0 : σ) (f0 : Frame ρ Ω)
    (hf : f0.outs = []) {log : List (Nat × Section σ (Frame ρ Ω))} {S : σ} {Ls : Nat → Frame ρ Ω}
    (h : Replay s0 (fun _ => f0) log S Ls) : ∀ hist : List (Nat × Op), log = hist.map (fun p => (p.1, (meth p.2).section)) →
    S = (runCalls seq s0 (hist.map Prod.snd)).1 ∧ ∀ i, (Ls i).outs = answersTo seq s0 hist i := by
  induction h with
  | nil =>
    intro hist hh
    have := List.map_eq_nil_iff.1 hh.symm
    subst this
    exact ⟨rfl, fun i => hf⟩
  | @snoc log s ls i sec s' l' hpre he ih =>
    intro hist hh
    obtain ⟨hist, last, rfl, e1, e2⟩ := List.map_eq_append_iff.1 hh.symm
    obtain ⟨⟨j, op⟩, rfl, e5⟩ := List.map_eq_singleton_iff.1 e2
    have e2' : (j, (meth op).section) = (i, sec) := e5
    injection e2' with e3 e4
    subst e3 e4
    obtain ⟨h3, h4⟩ := ih hist e1.symm
    obtain ⟨e1, _, e2⟩ := exec_alone he
    rw [hseq] at e1 e2
    refine ⟨?_, ?_⟩
    · simp only [List.map_append, List.map_cons, List.map_nil, runCalls_snoc]
      rw [← h3, e1]
    · intro k
      rw [answersTo_snoc]
      by_cases hj : k = j
      · subst hj
        simp only [upd_self, if_true]
        rw [e2, h4 k, h3]
      · simp only [upd_ne _ _ hj, h4 k, if_neg (fun e => hj e.symm : ¬ j = k), List.append_nil]

/-- Accesses of a reading method that do not write make its section read only. -/
theorem readOnly_section {m : Method σ ρ Ω} (h : m.mode = .read → ∀ f ∈ m.code, ∀ s r s' r', f s r = .ok (s', r') → s' = s) : ReadOnly m.section := by
  intro hm s l s' l' hs
  simp only [Method.section] at hs hm
  cases e : m.code[l.pc]? with
  | none => rw [e] at hs; cases hs
  | some f =>
    rw [e] at hs
    simp only at hs
    have hf := List.mem_of_getElem? e
    cases e2 : f s l.reg with
    | panic => rw [e2] at hs; cases hs
    | diverge => rw [e2] at hs; cases hs; rfl
    | ok r =>
      rw [e2] at hs
      obtain ⟨s2, r2⟩ := r
      cases hs
      exact h hm f hf _ _ _ _ e2

/-- A call that panics in a concurrent execution panics also when the calls that ended before it are made one after the other and then this
one. -/
theorem panic_alone {m : Method σ ρ Ω} {S s : σ} {l l' : Frame ρ Ω} (h : Accesses m.section.step S (m.section.enter l') s l)
    (hp : m.section.step s l = .panic) : (m.alone S).2 = .panic := by
  have := exec_alone (.panic h hp)
  have h3 := this.2.2
  have ho := (accesses_run h).1
  cases e : (m.alone S).2 with
  | panic => rfl
  | diverge => exact absurd e this.2.1
  | ok o =>
    rw [e] at h3
    simp only [Method.section, answer] at h3 ho
    rw [ho] at h3
    have := List.append_cancel_left h3
    simp at this

theorem methods_atomic (meth : Op → Method σ ρ Ω) (seq : Op → σ → σ × Res Ω) (hseq : ∀ op s, (meth op).alone s = seq op s)
    (hro : ∀ op, ReadOnly (meth op).section) (r0 : ρ) (s0 : σ) (calls : Nat → List Op) (c : Config σ (Frame ρ Ω))
    (h : Reach (callers meth r0 s0 calls) c) : Atomic meth seq s0 calls c := by
  have hro' : ∀ i, ∀ sec ∈ (calls i).map (fun op => (meth op).section), ReadOnly sec := by
    intro i sec hs
    obtain ⟨op, _, rfl⟩ := List.mem_map.1 hs
    exact hro op
  have hi := Inv.reach hro' h
  obtain ⟨S, Ls, h1, h2, _, h4⟩ := hi.replay
  obtain ⟨hist, e1, e2⟩ := exists_history (fun op => (meth op).section) c.log
    (fun i => (calls i).take ((calls i).length - (c.threads i).todo.length - (c.threads i).cur.toList.length)) (by
      intro i
      have ho := hi.order i
      have hl := congrArg List.length ho
      simp only [List.length_append, List.length_map] at hl
      rw [List.map_take, ← ho, List.append_assoc, List.take_append_of_le_length (by simp only [List.length_map]; omega), List.take_of_length_le]
      simp only [List.length_map]; omega)
  obtain ⟨e3, e4⟩ := replay_history meth seq hseq s0 ⟨0, r0, []⟩ rfl h1 hist e1
  refine ⟨hist, e1, e2, ?_, ?_⟩
  · intro i hc; rw [h2 i hc, e4 i]
  · intro hr; rw [h4 hr, e3]

end Xcore.Lock
