import Verif.Model.Lock

/-! # Invariants of goroutines sharing a RWMutex -/

namespace Xcore.Lock

variable {σ L : Type}

@[simp] theorem upd_self {α : Type} (f : Nat → α) (i : Nat) (a : α) : upd f i a i = a := by simp [upd]

theorem upd_ne {α : Type} (f : Nat → α) {i j : Nat} (a : α) (h : j ≠ i) : upd f i a j = f j := by simp [upd, h]

/-- The current section and the remaining calls of every goroutine come from its program. -/
structure Inv (s0 : σ) (l0 : Nat → L) (prog : Nat → List (Section σ L)) (c : Config σ L) : Prop where
  order : ∀ i, ((c.log.filter (fun p => p.1 = i)).map Prod.snd) ++ (c.threads i).cur.toList ++ (c.threads i).todo = prog i
  excl : ∀ w, c.writer = some w → c.readers = []
  busyR : ∀ i sec, (c.threads i).cur = some sec → sec.mode = .read → i ∈ c.readers
  busyW : ∀ i sec, (c.threads i).cur = some sec → sec.mode = .write → c.writer = some i
  replay : ∃ S Ls, Replay s0 l0 c.log S Ls ∧
    (∀ i, (c.threads i).cur = none → (c.threads i).loc = Ls i) ∧
    (∀ i sec, (c.threads i).cur = some sec →
      Accesses sec.step S (sec.enter (Ls i)) c.shared (c.threads i).loc) ∧
    ((∀ i sec, (c.threads i).cur = some sec → sec.mode = .read) → c.shared = S)

theorem Inv.init (s0 : σ) (l0 : Nat → L) (prog : Nat → List (Section σ L)) : Inv s0 l0 prog (init s0 l0 prog) := by
  refine ⟨?_, ?_, ?_, ?_, s0, l0, .nil, ?_, ?_, ?_⟩ <;> simp [Lock.init]

theorem Inv.readonly_of_mem {s0 : σ} {l0 : Nat → L} {prog : Nat → List (Section σ L)} {c : Config σ L}
    (h : Inv s0 l0 prog c) (hro : ∀ i, ∀ sec ∈ prog i, ReadOnly sec) {i : Nat} {sec : Section σ L}
    (hc : (c.threads i).cur = some sec) : ReadOnly sec := by
  refine hro i sec ?_
  rw [← h.order i, hc]
  simp

/-- While some goroutine is inside a write section it is the only one inside a section. -/
theorem Inv.alone {s0 : σ} {l0 : Nat → L} {prog : Nat → List (Section σ L)} {c : Config σ L} (h : Inv s0 l0 prog c)
    {i : Nat} {sec : Section σ L} (hc : (c.threads i).cur = some sec) (hm : sec.mode = .write) :
    ∀ j, j ≠ i → (c.threads j).cur = none := by
  intro j hj
  have hw := h.busyW i sec hc hm
  cases hcj : (c.threads j).cur with
  | none => rfl
  | some sec' =>
    exfalso
    cases hm' : sec'.mode with
    | read =>
      have := h.busyR j sec' hcj hm'
      rw [h.excl i hw] at this
      simp at this
    | write =>
      have := h.busyW j sec' hcj hm'
      rw [hw] at this
      exact hj (Option.some.inj this).symm

/-- What holds when a section ends (normally or by a panic), releasing the lock or not. -/
theorem Inv.finish {s0 : σ} {l0 : Nat → L} {prog : Nat → List (Section σ L)} {c : Config σ L} (h : Inv s0 l0 prog c)
    {i : Nat} {sec : Section σ L} {l' : L} (hcur : (c.threads i).cur = some sec)
    (hend : ∀ S l, Accesses sec.step S (sec.enter l) c.shared (c.threads i).loc → Exec sec S l c.shared l')
    (w : Option Nat) (rs : List Nat)
    (hexcl : ∀ x, w = some x → rs = [])
    (hR : ∀ j, j ≠ i → j ∈ c.readers → j ∈ rs)
    (hW : ∀ j, j ≠ i → c.writer = some j → w = some j) :
    Inv s0 l0 prog { c with
      writer := w, readers := rs, threads := upd c.threads i ⟨l', none, (c.threads i).todo⟩, log := c.log ++ [(i, sec)] } := by
  obtain ⟨S, Ls, hrep, hidle, hbusy, hsh⟩ := h.replay
  have hex := hend S (Ls i) (hbusy i sec hcur)
  refine ⟨?_, hexcl, ?_, ?_, c.shared, upd Ls i l', .snoc hrep hex, ?_, ?_, ?_⟩
  · intro j
    have ho := h.order j
    by_cases hj : j = i
    · subst hj
      rw [hcur] at ho
      simpa [List.filter_append] using ho
    · have : ¬ i = j := fun e => hj e.symm
      simp only [upd_ne _ _ hj, List.filter_append]
      simpa [this] using ho
  · intro j sec' hj hm
    by_cases hji : j = i
    · subst hji; simp at hj
    · simp only [upd_ne _ _ hji] at hj
      exact hR j hji (h.busyR j sec' hj hm)
  · intro j sec' hj hm
    by_cases hji : j = i
    · subst hji; simp at hj
    · simp only [upd_ne _ _ hji] at hj
      exact hW j hji (h.busyW j sec' hj hm)
  · intro j hj
    by_cases hji : j = i
    · subst hji; simp
    · simp only [upd_ne _ _ hji] at hj ⊢
      exact hidle j hj
  · intro j sec' hj
    by_cases hji : j = i
    · subst hji; simp at hj
    · simp only [upd_ne _ _ hji] at hj ⊢
      -- if the finished section was a write section nobody else is inside
      cases hm : sec.mode with
      | write => rw [h.alone hcur hm j hji] at hj; simp at hj
      | read =>
        have hall : ∀ k sk, (c.threads k).cur = some sk → sk.mode = .read := by
          intro k sk hk
          cases hmk : sk.mode with
          | read => rfl
          | write =>
            by_cases hki : k = i
            · subst hki; rw [hcur] at hk; cases hk; rw [hm] at hmk; cases hmk
            · have := h.alone hk hmk i (fun e => hki e.symm)
              rw [hcur] at this; cases this
        have hS := hsh hall
        have := hbusy j sec' hj
        rw [← hS] at this
        exact this
  · intro _; rfl

theorem Inv.step {s0 : σ} {l0 : Nat → L} {prog : Nat → List (Section σ L)} (hro : ∀ i, ∀ sec ∈ prog i, ReadOnly sec)
    {c c' : Config σ L} {i : Nat} (h : Inv s0 l0 prog c) (hs : Step c i c') : Inv s0 l0 prog c' := by
  cases hs with
  | @rlock sec rest hidle htodo hm hw =>
    obtain ⟨S, Ls, hrep, hid, hbusy, hsh⟩ := h.replay
    have hall : ∀ k sk, (c.threads k).cur = some sk → sk.mode = .read := by
      intro k sk hk
      cases hmk : sk.mode with
      | read => rfl
      | write => have := h.busyW k sk hk hmk; rw [hw] at this; cases this
    have hS := hsh hall
    refine ⟨?_, ?_, ?_, ?_, S, Ls, hrep, ?_, ?_, ?_⟩
    · intro j
      have ho := h.order j
      by_cases hj : j = i
      · subst hj
        rw [hidle, htodo] at ho
        simpa using ho
      · simpa only [upd_ne _ _ hj] using ho
    · intro w hw'; rw [hw] at hw'; cases hw'
    · intro j sec' hj hm'
      by_cases hji : j = i
      · subst hji; simp
      · simp only [upd_ne _ _ hji] at hj
        exact List.mem_cons_of_mem _ (h.busyR j sec' hj hm')
    · intro j sec' hj hm'
      by_cases hji : j = i
      · subst hji; simp at hj; subst hj; rw [hm] at hm'; cases hm'
      · simp only [upd_ne _ _ hji] at hj
        exact h.busyW j sec' hj hm'
    · intro j hj
      by_cases hji : j = i
      · subst hji; simp at hj
      · simp only [upd_ne _ _ hji] at hj ⊢; exact hid j hj
    · intro j sec' hj
      by_cases hji : j = i
      · subst hji
        simp only [upd_self, Option.some.injEq] at hj
        subst hj
        simp only [upd_self]
        rw [hid j hidle, hS]
        exact .refl
      · simp only [upd_ne _ _ hji] at hj ⊢; exact hbusy j sec' hj
    · intro _; exact hS
  | @lock sec rest hidle htodo hm hw hr =>
    obtain ⟨S, Ls, hrep, hid, hbusy, hsh⟩ := h.replay
    have hnone : ∀ k sk, (c.threads k).cur = some sk → False := by
      intro k sk hk
      cases hmk : sk.mode with
      | read => have := h.busyR k sk hk hmk; rw [hr] at this; simp at this
      | write => have := h.busyW k sk hk hmk; rw [hw] at this; cases this
    have hS := hsh (fun k sk hk => (hnone k sk hk).elim)
    refine ⟨?_, ?_, ?_, ?_, S, Ls, hrep, ?_, ?_, ?_⟩
    · intro j
      have ho := h.order j
      by_cases hj : j = i
      · subst hj
        rw [hidle, htodo] at ho
        simpa using ho
      · simpa only [upd_ne _ _ hj] using ho
    · intro w _; exact hr
    · intro j sec' hj hm'
      by_cases hji : j = i
      · subst hji; simp at hj; subst hj; rw [hm] at hm'; cases hm'
      · simp only [upd_ne _ _ hji] at hj
        exact (hnone j sec' hj).elim
    · intro j sec' hj hm'
      by_cases hji : j = i
      · subst hji; rfl
      · simp only [upd_ne _ _ hji] at hj
        exact (hnone j sec' hj).elim
    · intro j hj
      by_cases hji : j = i
      · subst hji; simp at hj
      · simp only [upd_ne _ _ hji] at hj ⊢; exact hid j hj
    · intro j sec' hj
      by_cases hji : j = i
      · subst hji
        simp only [upd_self, Option.some.injEq] at hj
        subst hj
        simp only [upd_self]
        rw [hid j hidle, hS]
        exact .refl
      · simp only [upd_ne _ _ hji] at hj ⊢; exact hbusy j sec' hj
    · intro _; exact hS
  | @access sec s' l' hcur hst =>
    obtain ⟨S, Ls, hrep, hid, hbusy, hsh⟩ := h.replay
    refine ⟨?_, h.excl, ?_, ?_, S, Ls, hrep, ?_, ?_, ?_⟩
    · intro j
      have ho := h.order j
      by_cases hj : j = i
      · subst hj
        rw [hcur] at ho
        simpa using ho
      · simpa only [upd_ne _ _ hj] using ho
    · intro j sec' hj hm'
      by_cases hji : j = i
      · subst hji
        simp only [upd_self, Option.some.injEq] at hj
        subst hj
        exact h.busyR _ _ hcur hm'
      · simp only [upd_ne _ _ hji] at hj
        exact h.busyR j sec' hj hm'
    · intro j sec' hj hm'
      by_cases hji : j = i
      · subst hji
        simp only [upd_self, Option.some.injEq] at hj
        subst hj
        exact h.busyW _ _ hcur hm'
      · simp only [upd_ne _ _ hji] at hj
        exact h.busyW j sec' hj hm'
    · intro j hj
      by_cases hji : j = i
      · subst hji; simp at hj
      · simp only [upd_ne _ _ hji] at hj ⊢; exact hid j hj
    · intro j sec' hj
      by_cases hji : j = i
      · subst hji
        simp only [upd_self, Option.some.injEq] at hj
        subst hj
        simp only [upd_self]
        exact .tail (hbusy j sec hcur) hst
      · simp only [upd_ne _ _ hji] at hj ⊢
        cases hm : sec.mode with
        | write => rw [h.alone hcur hm j hji] at hj; cases hj
        | read =>
          have hr := h.readonly_of_mem hro hcur hm _ _ _ _ hst
          rw [hr]
          exact hbusy j sec' hj
    · intro hall
      have hall' : ∀ k sk, (c.threads k).cur = some sk → sk.mode = .read := by
        intro k sk hk
        by_cases hki : k = i
        · subst hki
          rw [hcur] at hk; cases hk
          exact hall k sec (by simp)
        · exact hall k sk (by simp only [upd_ne _ _ hki]; exact hk)
      have hm : sec.mode = .read := hall' i sec hcur
      have hr := h.readonly_of_mem hro hcur hm _ _ _ _ hst
      show s' = S
      rw [hr]; exact hsh hall'
  | @runlock sec l' hcur hm hst =>
    refine h.finish hcur (fun S l ha => .done ha hst) c.writer _ ?_ ?_ (fun _ _ hw => hw)
    · intro x hx; rw [h.excl x hx]; rfl
    · intro j hji hj; exact (List.mem_erase_of_ne hji).2 hj
  | @unlock sec l' hcur hm hst =>
    refine h.finish hcur (fun S l ha => .done ha hst) none c.readers (by simp) (fun _ _ hj => hj) ?_
    intro j hji hj
    have := h.busyW i sec hcur hm
    rw [this] at hj
    exact absurd (Option.some.inj hj).symm hji
  | @panicDeferred sec hcur hd hst =>
    refine h.finish hcur (fun S l ha => .panic ha hst) _ _ ?_ ?_ ?_
    · intro x hx
      cases hm : sec.mode with
      | read =>
        simp only [hm] at hx
        have : c.writer = some x := by simpa using hx
        simp [h.excl x this]
      | write => simp [hm] at hx
    · intro j hji hj
      split
      · exact (List.mem_erase_of_ne hji).2 hj
      · exact hj
    · intro j hji hj
      cases hm : sec.mode with
      | read => simp [hj]
      | write =>
        have := h.busyW i sec hcur hm
        rw [this] at hj
        exact absurd (Option.some.inj hj).symm hji
  | @panicLeak sec hcur hd hst =>
    exact h.finish hcur (fun S l ha => .panic ha hst) c.writer c.readers h.excl (fun _ _ hj => hj) (fun _ _ hj => hj)

theorem Inv.reach {s0 : σ} {l0 : Nat → L} {prog : Nat → List (Section σ L)} (hro : ∀ i, ∀ sec ∈ prog i, ReadOnly sec)
    {c : Config σ L} (h : Reach (Lock.init s0 l0 prog) c) : Inv s0 l0 prog c := by
  induction h with
  | refl => exact Inv.init s0 l0 prog
  | step _ hs ih => exact ih.step hro hs

/-! ## Exec is deterministic -/

theorem Accesses.det {f : σ → L → Outcome σ L} {s : σ} {l : L} {s1 : σ} {l1 : L} (h1 : Accesses f s l s1 l1)
    (hend : ∀ s' l', f s1 l1 ≠ .next s' l') {s2 : σ} {l2 : L} (h2 : Accesses f s l s2 l2) : Accesses f s2 l2 s1 l1 := by
  induction h2 with
  | refl => exact h1
  | @tail sa la sb lb _ hs ih =>
    -- from (sa,la) we reach (s1,l1) and the first access leads to (sb,lb)
    have key : ∀ {sx lx sy ly}, Accesses f sx lx sy ly → (∀ s' l', f sy ly ≠ .next s' l') → ∀ {sb lb},
        f sx lx = .next sb lb → Accesses f sb lb sy ly := by
      intro sx lx sy ly ha
      induction ha with
      | refl => intro hn sb lb hx; exact absurd hx (hn _ _)
      | @tail su lu sv lv hpre hlast ihk =>
        intro _ sb lb hx
        -- strengthen: either the prefix is empty or starts with the same access
        have aux : ∀ {sp lp sq lq}, Accesses f sp lp sq lq → ∀ {sb lb}, f sp lp = .next sb lb →
            (sq = sp ∧ lq = lp) ∨ Accesses f sb lb sq lq := by
          intro sp lp sq lq hpq
          induction hpq with
          | refl => intro sb lb _; exact Or.inl ⟨rfl, rfl⟩
          | tail _ hl ih2 =>
            intro sb lb hb
            rcases ih2 hb with ⟨e1, e2⟩ | hacc
            · subst e1; subst e2
              rw [hb] at hl; cases hl
              exact Or.inr .refl
            · exact Or.inr (.tail hacc hl)
        rcases aux hpre hx with ⟨e1, e2⟩ | hacc
        · subst e1; subst e2
          rw [hx] at hlast; cases hlast
          exact .refl
        · exact .tail hacc hlast
    exact key ih hend hs

theorem Accesses.end_unique {f : σ → L → Outcome σ L} {s : σ} {l : L} {s1 : σ} {l1 : L} (h1 : Accesses f s l s1 l1)
    (hend1 : ∀ s' l', f s1 l1 ≠ .next s' l') {s2 : σ} {l2 : L} (h2 : Accesses f s l s2 l2)
    (hend2 : ∀ s' l', f s2 l2 ≠ .next s' l') : s1 = s2 ∧ l1 = l2 := by
  have h := h1.det hend1 h2
  have aux : ∀ {sp lp sq lq}, Accesses f sp lp sq lq → (∀ s' l', f sp lp ≠ .next s' l') → sq = sp ∧ lq = lp := by
    intro sp lp sq lq hpq hn
    induction hpq with
    | refl => exact ⟨rfl, rfl⟩
    | tail _ hl ih2 => obtain ⟨e1, e2⟩ := ih2; subst e1; subst e2; exact absurd hl (hn _ _)
  exact aux h hend2

theorem Exec.det {sec : Section σ L} {s : σ} {l : L} {s1 : σ} {l1 : L} (h1 : Exec sec s l s1 l1) {s2 : σ} {l2 : L}
    (h2 : Exec sec s l s2 l2) : s1 = s2 ∧ l1 = l2 := by
  cases h1 with
  | done ha hd =>
    cases h2 with
    | done ha' hd' =>
      obtain ⟨e1, e2⟩ := ha.end_unique (by simp [hd]) ha' (by simp [hd'])
      subst e1; subst e2; rw [hd] at hd'; cases hd'; exact ⟨rfl, rfl⟩
    | panic ha' hd' =>
      obtain ⟨e1, e2⟩ := ha.end_unique (by simp [hd]) ha' (by simp [hd'])
      subst e1; subst e2; rw [hd] at hd'; cases hd'
  | panic ha hd =>
    cases h2 with
    | done ha' hd' =>
      obtain ⟨e1, e2⟩ := ha.end_unique (by simp [hd]) ha' (by simp [hd'])
      subst e1; subst e2; rw [hd] at hd'; cases hd'
    | panic ha' hd' =>
      obtain ⟨e1, e2⟩ := ha.end_unique (by simp [hd]) ha' (by simp [hd'])
      subst e1; subst e2; exact ⟨rfl, rfl⟩

end Xcore.Lock
