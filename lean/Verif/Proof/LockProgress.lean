import Verif.Proof.Lock

/-! # Progress, and what a panic does to the lock -/

namespace Xcore.Lock

variable {σ L : Type}

/-- Whoever holds the lock is inside a section. -/
structure Held (c : Config σ L) : Prop where
  writer : ∀ w, c.writer = some w → ∃ sec, (c.threads w).cur = some sec ∧ sec.mode = .write
  nodup : c.readers.Nodup
  readers : ∀ i ∈ c.readers, ∃ sec, (c.threads i).cur = some sec ∧ sec.mode = .read

theorem Held.init (s0 : σ) (l0 : Nat → L) (prog : Nat → List (Section σ L)) : Held (Lock.init s0 l0 prog) := by
  refine ⟨?_, ?_, ?_⟩ <;> simp [Lock.init]

theorem Held.step {s0 : σ} {l0 : Nat → L} {prog : Nat → List (Section σ L)}
    {c c' : Config σ L} {i : Nat} (hi : Inv s0 l0 prog c)
    (hdef : ∀ sec, (c.threads i).cur = some sec → sec.step c.shared (c.threads i).loc = .panic → sec.deferred = true)
    (h : Held c) (hs : Step c i c') : Held c' := by
  -- a reader distinct from `i` stays busy
  have hne : ∀ {t : Thread σ L} {j : Nat} {m : Mode}, j ≠ i → (∃ sec, (c.threads j).cur = some sec ∧ sec.mode = m) →
      ∃ sec, (upd c.threads i t j).cur = some sec ∧ sec.mode = m := by
    intro t j m hj hx; rw [upd_ne _ _ hj]; exact hx
  cases hs with
  | @rlock sec rest hidle htodo hm hw =>
    refine ⟨?_, ?_, ?_⟩
    · intro w hw'; rw [hw] at hw'; cases hw'
    · rw [List.nodup_cons]
      refine ⟨?_, h.nodup⟩
      intro hmem
      obtain ⟨sec', h1, _⟩ := h.readers i hmem
      rw [hidle] at h1; cases h1
    · intro j hj
      by_cases hji : j = i
      · subst hji; exact ⟨sec, by simp, hm⟩
      · exact hne hji (h.readers j (by simpa [hji] using hj))
  | @lock sec rest hidle htodo hm hw hr =>
    refine ⟨?_, h.nodup, ?_⟩
    · intro w hw'
      have : i = w := by simpa using hw'
      subst this; exact ⟨sec, by simp, hm⟩
    · intro j hj
      simp only [hr] at hj; cases hj
  | @access sec s' l' hcur hst =>
    refine ⟨?_, h.nodup, ?_⟩
    · intro w hw'
      by_cases hji : w = i
      · subst hji
        obtain ⟨sec', h1, h2⟩ := h.writer w hw'
        rw [hcur] at h1; cases h1
        exact ⟨sec, by simp, h2⟩
      · exact hne hji (h.writer w hw')
    · intro j hj
      by_cases hji : j = i
      · subst hji
        obtain ⟨sec', h1, h2⟩ := h.readers j hj
        rw [hcur] at h1; cases h1
        exact ⟨sec, by simp, h2⟩
      · exact hne hji (h.readers j hj)
  | @runlock sec l' hcur hm hst =>
    refine ⟨?_, h.nodup.erase i, ?_⟩
    · intro w hw'
      have hji : w ≠ i := by
        rintro rfl
        obtain ⟨sec', h1, h2⟩ := h.writer w hw'
        rw [hcur] at h1; cases h1; rw [hm] at h2; cases h2
      exact hne hji (h.writer w hw')
    · intro j hj
      have := h.nodup.mem_erase_iff.1 hj
      exact hne this.1 (h.readers j this.2)
  | @unlock sec l' hcur hm hst =>
    refine ⟨by simp, h.nodup, ?_⟩
    intro j hj
    have hw := hi.busyW i sec hcur hm
    simp only [hi.excl i hw] at hj; cases hj
  | @panicDeferred sec hcur hdd hst =>
    cases hm : sec.mode with
    | read =>
      refine ⟨?_, ?_, ?_⟩
      · intro w hw'
        have hw' : c.writer = some w := by simpa using hw'
        have hji : w ≠ i := by
          rintro rfl
          obtain ⟨sec', h1, h2⟩ := h.writer w hw'
          rw [hcur] at h1; cases h1; rw [hm] at h2; cases h2
        exact hne hji (h.writer w hw')
      · simpa using h.nodup.erase i
      · intro j hj
        have hj : j ∈ c.readers.erase i := by simpa using hj
        have := h.nodup.mem_erase_iff.1 hj
        exact hne this.1 (h.readers j this.2)
    | write =>
      refine ⟨by simp, by simpa using h.nodup, ?_⟩
      intro j hj
      have hj : j ∈ c.readers := by simpa using hj
      have hw := hi.busyW i sec hcur hm
      rw [hi.excl i hw] at hj; cases hj
  | @panicLeak sec hcur hdd hst =>
    have := hdef sec hcur hst
    rw [hdd] at this; cases this

theorem Held.reach {s0 : σ} {l0 : Nat → L} {prog : Nat → List (Section σ L)}
    (hro : ∀ i, ∀ sec ∈ prog i, ReadOnly sec) (hd : ∀ i, ∀ sec ∈ prog i, sec.deferred = true)
    {c : Config σ L} (h : Reach (Lock.init s0 l0 prog) c) : Held c := by
  induction h with
  | refl => exact Held.init s0 l0 prog
  | @step c c' i h hs ih =>
    refine ih.step (Inv.reach hro h) ?_ hs
    intro sec hc _
    apply hd i
    rw [← (Inv.reach hro h).order i, hc]; simp

/-- The same as long as no section without deferred unlock panics. -/
theorem Held.calm {s0 : σ} {l0 : Nat → L} {prog : Nat → List (Section σ L)} (hro : ∀ i, ∀ sec ∈ prog i, ReadOnly sec)
    {c : Config σ L} (h : Calm (Lock.init s0 l0 prog) c) : Held c := by
  have hr : ∀ {c : Config σ L}, Calm (Lock.init s0 l0 prog) c → Reach (Lock.init s0 l0 prog) c := by
    intro c h
    induction h with
    | refl => exact .refl
    | step _ _ hs ih => exact .step ih hs
  induction h with
  | refl => exact Held.init s0 l0 prog
  | step h hp hs ih => exact ih.step (Inv.reach hro (hr h)) hp hs

theorem Calm.reach {c0 c : Config σ L} (h : Calm c0 c) : Reach c0 c := by
  induction h with
  | refl => exact .refl
  | step _ _ hs ih => exact .step ih hs

theorem progress_of_held {c : Config σ L} (h : Held c) {i : Nat}
    (hunf : (c.threads i).cur ≠ none ∨ (c.threads i).todo ≠ []) : ∃ j c', Step c j c' := by
  by_cases hb : ∃ j sec, (c.threads j).cur = some sec
  · obtain ⟨j, sec, hj⟩ := hb
    refine ⟨j, ?_⟩
    cases hst : sec.step c.shared (c.threads j).loc with
    | next s' l' => exact ⟨_, .access hj hst⟩
    | done l' =>
      cases hm : sec.mode with
      | read => exact ⟨_, .runlock hj hm hst⟩
      | write => exact ⟨_, .unlock hj hm hst⟩
    | panic =>
      cases hd : sec.deferred with
      | true => exact ⟨_, .panicDeferred hj hd hst⟩
      | false => exact ⟨_, .panicLeak hj hd hst⟩
  · have hidle : ∀ j, (c.threads j).cur = none := by
      intro j
      cases hc : (c.threads j).cur with
      | none => rfl
      | some sec => exact absurd ⟨j, sec, hc⟩ hb
    have hw : c.writer = none := by
      cases hc : c.writer with
      | none => rfl
      | some w => obtain ⟨sec, h1, _⟩ := h.writer w hc; rw [hidle w] at h1; cases h1
    have hr : c.readers = [] := by
      cases hc : c.readers with
      | nil => rfl
      | cons j js =>
        obtain ⟨sec, h1, _⟩ := h.readers j (by simp [hc])
        rw [hidle j] at h1; cases h1
    have htodo : (c.threads i).todo ≠ [] := by
      rcases hunf with h1 | h1
      · exact absurd (hidle i) h1
      · exact h1
    cases ht : (c.threads i).todo with
    | nil => exact absurd ht htodo
    | cons sec rest =>
      cases hm : sec.mode with
      | read => exact ⟨i, _, .rlock (hidle i) ht hm hw⟩
      | write => exact ⟨i, _, .lock (hidle i) ht hm hw hr⟩

/-- If everybody is outside and the write lock is still held, nothing can ever move. -/
theorem stuck_of_leaked {c : Config σ L} {w : Nat} (hw : c.writer = some w) (hidle : ∀ j, (c.threads j).cur = none) :
    ∀ i c', ¬ Step c i c' := by
  intro i c' hs
  cases hs with
  | rlock _ _ _ h => rw [hw] at h; cases h
  | lock _ _ _ h _ => rw [hw] at h; cases h
  | access h _ => rw [hidle i] at h; cases h
  | runlock h _ _ => rw [hidle i] at h; cases h
  | unlock h _ _ => rw [hidle i] at h; cases h
  | panicDeferred h _ _ => rw [hidle i] at h; cases h
  | panicLeak h _ _ => rw [hidle i] at h; cases h

/-- Goroutine `i` is inside a read section. -/
def readingNow (c : Config σ L) (i : Nat) : Nat :=
  match (c.threads i).cur with
  | some sec => if sec.mode = .read then 1 else 0
  | none => 0

/-- A leaked read lock of goroutine `i`: one more holding than the sections `i` is in. -/
def LeakedRead (c : Config σ L) (i : Nat) : Prop := 1 + readingNow c i ≤ c.readers.count i ∧ c.writer = none

theorem LeakedRead.step {c c' : Config σ L} {i j : Nat} (h : LeakedRead c i) (hs : Step c j c') : LeakedRead c' i := by
  obtain ⟨h1, h2⟩ := h
  by_cases hji : j = i
  · subst hji
    cases hs with
    | @rlock sec rest hidle htodo hm hw =>
      simp only [LeakedRead, readingNow, hidle] at h1 ⊢
      simp only [upd_self, hm, if_true, List.count_cons_self]
      exact ⟨by omega, h2⟩
    | @lock sec rest hidle htodo hm hw hr => rw [hr] at h1; simp at h1
    | @access sec s' l' hcur hst =>
      simp only [LeakedRead, readingNow, hcur] at h1 ⊢
      exact ⟨by simpa using h1, h2⟩
    | @runlock sec l' hcur hm hst =>
      simp only [LeakedRead, readingNow, hcur, hm] at h1 ⊢
      refine ⟨?_, h2⟩
      simp only [upd_self, List.count_erase_self]
      simp at h1; omega
    | @unlock sec l' hcur hm hst =>
      simp only [LeakedRead, readingNow, hcur, hm] at h1 ⊢
      refine ⟨?_, trivial⟩
      simp only [upd_self]; simpa using h1
    | @panicDeferred sec hcur hdd hst =>
      simp only [LeakedRead, readingNow, hcur] at h1 ⊢
      refine ⟨?_, by simp [h2]⟩
      simp only [upd_self]
      cases hm : sec.mode with
      | read => simp [hm, List.count_erase_self] at h1 ⊢; omega
      | write => simp [hm] at h1 ⊢; omega
    | @panicLeak sec hcur hdd hst =>
      simp only [LeakedRead, readingNow, hcur] at h1 ⊢
      refine ⟨?_, h2⟩
      simp only [upd_self]; omega
  · have hij : i ≠ j := fun e => hji e.symm
    cases hs with
    | @rlock sec rest hidle htodo hm hw =>
      simp only [LeakedRead, readingNow, upd_ne _ _ hij] at h1 ⊢
      refine ⟨?_, h2⟩
      rw [List.count_cons_of_ne hji]; exact h1
    | @lock sec rest hidle htodo hm hw hr => rw [hr] at h1; simp at h1
    | @access sec s' l' hcur hst =>
      simp only [LeakedRead, readingNow, upd_ne _ _ hij] at h1 ⊢
      exact ⟨h1, h2⟩
    | @runlock sec l' hcur hm hst =>
      simp only [LeakedRead, readingNow, upd_ne _ _ hij] at h1 ⊢
      refine ⟨?_, h2⟩
      rw [List.count_erase_of_ne hij]; exact h1
    | @unlock sec l' hcur hm hst =>
      simp only [LeakedRead, readingNow, upd_ne _ _ hij] at h1 ⊢
      exact ⟨h1, trivial⟩
    | @panicDeferred sec hcur hdd hst =>
      simp only [LeakedRead, readingNow, upd_ne _ _ hij] at h1 ⊢
      refine ⟨?_, by simp [h2]⟩
      refine Nat.le_trans h1 ?_
      split
      · rw [List.count_erase_of_ne hij]; exact Nat.le_refl _
      · exact Nat.le_refl _
    | @panicLeak sec hcur hdd hst =>
      simp only [LeakedRead, readingNow, upd_ne _ _ hij] at h1 ⊢
      exact ⟨h1, h2⟩

theorem LeakedRead.reach {c c' : Config σ L} {i : Nat} (h : LeakedRead c i) (hs : Reach c c') : LeakedRead c' i := by
  induction hs with
  | refl => exact h
  | step _ hs ih => exact ih.step hs

end Xcore.Lock
