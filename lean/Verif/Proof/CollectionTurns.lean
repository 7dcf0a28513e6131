import Verif.Proof.CollectionConc

/-! # Calls on a collection that do not overlap -/

namespace Xcore.CollectionConc

open Dataset

/-- The elements from position `n` on report absence. -/
def AbsentFrom (h : Heap) (l : List (Option Addr)) (key : Str) (n : Nat) : Prop :=
  ∀ d ∈ l.drop n, ∃ b, d = some b ∧ get h b key = .ok none

/-- Where the call `op` is that goroutine `i` started in `c` with `rest` to follow. -/
inductive Stage (c : Conf) (i : Nat) (op : Op) (rest : List Op) (c1 : Conf) : Prop where
  | before : c1 = c → Stage c i op rest c1
  | scan {key : Str} {n : Nat} : op = .getData key → c1.heap = c.heap → c1.items = c.items → c.stuckW = false ∧ c1.stuckW = false → c1.leaked = 0 →
      (c1.gor i) = ⟨.scan key n, rest, (c.gor i).outs⟩ → n ≤ c.items.length → AbsentFrom c.heap c.items key n → Stage c i op rest c1
  | got {key : Str} {n : Nat} {d : Option Addr} : op = .getData key → c1.heap = c.heap → c1.items = c.items → c.stuckW = false ∧ c1.stuckW = false → c1.leaked = 0 →
      (c1.gor i) = ⟨.got key n d, rest, (c.gor i).outs⟩ → c.items[n]? = some d → AbsentFrom c.heap c.items key (n + 1) → Stage c i op rest c1
  | done {o : Out} : Effect c.heap c.items op o c1.heap c1.items → c1.gor i = ⟨.idle, rest, (c.gor i).outs ++ [o]⟩ → c1.leaked = 0 →
      (c1.stuckW = true ↔ c.stuckW = true ∨ ((op = .pop ∨ op = .shift) ∧ c.items = [])) → Stage c i op rest c1
  | beyond : (c1.gor i).todo.length < rest.length → Stage c i op rest c1

theorem step_idle_todo {c c' : Conf} {i : Nat} (hs : Step c i c') (hp : (c.gor i).pos = .idle) :
    (c'.gor i).todo.length < (c.gor i).todo.length := by
  cases hs <;> simp only [answered, moved, put_self]
  all_goals first
    | (rename_i ht _ _; simp [ht]; done)
    | (rename_i ht _; simp [ht]; done)
    | (rename_i ht _ _ _; simp [ht]; done)
    | (rename_i ht _ _ _ _; simp [ht]; done)
    | (rename_i h _ _; rw [hp] at h; cases h; done)
    | (rename_i h _; rw [hp] at h; cases h; done)
    | (rename_i h; rw [hp] at h; cases h; done)

theorem drop_get {α : Type} {l : List α} {n : Nat} {d : α} (h : l[n]? = some d) : l.drop n = d :: l.drop (n + 1) := by
  obtain ⟨hn, rfl⟩ := List.getElem?_eq_some_iff.1 h
  exact List.drop_eq_getElem_cons hn

theorem take_get {α : Type} {l : List α} {n : Nat} {d : α} (h : l[n]? = some d) : l = l.take n ++ [d] ++ l.drop (n + 1) := by
  rw [List.append_assoc, List.singleton_append, ← drop_get h, List.take_append_drop]

theorem Stage.start {c c1 : Conf} {i : Nat} {op : Op} {rest : List Op} (hp : (c.gor i).pos = .idle) (ht : (c.gor i).todo = op :: rest)
    (hl : c.leaked = 0) (hs : Step c i c1) : Stage c i op rest c1 := by
  cases hs with
  | push _ h hw => rw [ht] at h; cases h; exact .done .push (put_self _ _ _) hl (by simp [hw])
  | unshift _ h hw => rw [ht] at h; cases h; exact .done .unshift (put_self _ _ _) hl (by simp [hw])
  | pop _ h hw _ hd =>
    rw [ht] at h; cases h
    obtain ⟨ys, hy⟩ := List.getLast?_eq_some_iff.1 hd
    exact .done (.pop (by dsimp only; rw [hy]; simp)) (put_self _ _ _) hl (by simp [hw, hy])
  | shift _ h hw _ hd => rw [ht] at h; cases h; exact .done (.shift hd) (put_self _ _ _) hl (by simp [hw, hd])
  | removePanic _ h ho _ _ hd =>
    rw [ht] at h; cases h
    rcases ho with rfl | rfl
    · exact .done (.popEmpty hd) (put_self _ _ _) hl (by simp [hd])
    · exact .done (.shiftEmpty hd) (put_self _ _ _) hl (by simp [hd])
  | start _ h hw =>
    rw [ht] at h; cases h
    exact .scan rfl rfl rfl ⟨hw, hw⟩ hl (put_self _ _ _) (Nat.le_refl _) (by intro d hd; simp at hd)
  | read h => rw [hp] at h; cases h
  | readPanic h => rw [hp] at h; cases h
  | hit h => rw [hp] at h; cases h
  | miss h => rw [hp] at h; cases h
  | getPanic h => rw [hp] at h; cases h
  | nilPanic h => rw [hp] at h; cases h
  | finish h => rw [hp] at h; cases h
  | assign _ h hs => rw [ht] at h; cases h; exact .done (.assign hs) (put_self _ _ _) hl (by simp)
  | assignPanic _ h hs => rw [ht] at h; cases h; exact .done (.assignPanic hs) (put_self _ _ _) hl (by simp)

theorem Stage.step {c c1 c2 : Conf} {i : Nat} {op : Op} {rest : List Op} (hp : (c.gor i).pos = .idle) (ht : (c.gor i).todo = op :: rest)
    (hl : c.leaked = 0) (st : Stage c i op rest c1) (hs : Step c1 i c2) : Stage c i op rest c2 := by
  cases st with
  | before h => subst h; exact .start hp ht hl hs
  | beyond h =>
    obtain ⟨d, hd⟩ := step_todo hs
    refine .beyond (Nat.lt_of_le_of_lt ?_ h)
    rw [hd]; simp
  | done _ hg =>
    have := step_idle_todo hs (by rw [hg])
    rw [hg] at this
    exact .beyond this
  | @scan key n ho hh hi hw hlk hg hn hab =>
    cases hs with
    | push h => rw [hg] at h; cases h
    | unshift h => rw [hg] at h; cases h
    | pop h => rw [hg] at h; cases h
    | shift h => rw [hg] at h; cases h
    | removePanic h => rw [hg] at h; cases h
    | start h => rw [hg] at h; cases h
    | hit h => rw [hg] at h; cases h
    | miss h => rw [hg] at h; cases h
    | getPanic h => rw [hg] at h; cases h
    | nilPanic h => rw [hg] at h; cases h
    | assign h => rw [hg] at h; cases h
    | assignPanic h => rw [hg] at h; cases h
    | @read key' n' d h hw' hd =>
      rw [hg] at h; cases h
      exact .got ho hh hi hw hlk (by simp only [moved, put_self]; rw [hg]) (by rw [← hi]; exact hd) hab
    | @readPanic key' n' h hw' hd =>
      rw [hg] at h; cases h
      rw [hi, List.getElem?_eq_none_iff] at hd
      omega
    | @finish key' h =>
      rw [hg] at h; cases h
      have e : Effect c.heap c.items op (.found key none) c1.heap c1.items := by
        rw [ho, hh, hi]
        exact .absent (by simpa [AbsentFrom] using hab)
      exact .done e (by simp only [answered, put_self]; rw [hg]) hlk (by simp [hw, ho])
  | @got key n d ho hh hi hw hlk hg hd hab =>
    cases hs with
    | push h => rw [hg] at h; cases h
    | unshift h => rw [hg] at h; cases h
    | pop h => rw [hg] at h; cases h
    | shift h => rw [hg] at h; cases h
    | removePanic h => rw [hg] at h; cases h
    | start h => rw [hg] at h; cases h
    | read h => rw [hg] at h; cases h
    | readPanic h => rw [hg] at h; cases h
    | finish h => rw [hg] at h; cases h
    | assign h => rw [hg] at h; cases h
    | assignPanic h => rw [hg] at h; cases h
    | @hit key' n' a v h hv =>
      rw [hg] at h; cases h
      have e : Effect c.heap c.items op (.found key (some v)) c1.heap c1.items := by
        rw [ho, hi]
        rw [hh] at hv ⊢
        exact .found (take_get hd) hv hab
      exact .done e (by simp only [answered, put_self]; rw [hg]) hlk (by simp [hw, ho])
    | @miss key' n' a h hv =>
      rw [hg] at h; cases h
      refine .scan ho hh hi hw hlk (by simp only [moved, put_self]; rw [hg]) (Nat.le_of_lt (List.getElem?_eq_some_iff.1 hd).1) ?_
      intro x hx
      rw [drop_get hd, List.mem_cons] at hx
      rcases hx with rfl | hx
      · exact ⟨a, rfl, by rw [← hh]; exact hv⟩
      · exact hab x hx
    | @getPanic key' n' a h hv =>
      rw [hg] at h; cases h
      have e : Effect c.heap c.items op .panic c1.heap c1.items := by
        rw [ho, hi]
        rw [hh] at hv ⊢
        exact .lookupPanic (take_get hd) (by rintro b hb; cases hb; exact hv) hab
      exact .done e (by simp only [answered, put_self]; rw [hg]) hlk (by simp [hw, ho])
    | @nilPanic key' n' h =>
      rw [hg] at h; cases h
      have e : Effect c.heap c.items op .panic c1.heap c1.items := by
        rw [ho, hi, hh]
        exact .lookupPanic (take_get hd) (by rintro b hb; cases hb) hab
      exact .done e (by simp only [answered, put_self]; rw [hg]) hlk (by simp [hw, ho])

theorem Stage.alone {c c1 : Conf} {i : Nat} {op : Op} {rest : List Op} (hp : (c.gor i).pos = .idle) (ht : (c.gor i).todo = op :: rest)
    (hl : c.leaked = 0) (h : Alone i c c1) : Stage c i op rest c1 := by
  induction h with
  | refl => exact .before rfl
  | step _ hs ih => exact ih.step hp ht hl hs

theorem alone_other {c c1 : Conf} {i : Nat} (h : Alone i c c1) : ∀ j, j ≠ i → c1.gor j = c.gor j := by
  intro j hj
  induction h with
  | refl => rfl
  | step _ hs ih => rw [step_other hs j hj, ih]

/-- A whole call of one goroutine. -/
theorem alone_call {c c' : Conf} {i : Nat} {op : Op} {o : Out} (hp : (c.gor i).pos = .idle) (hl : c.leaked = 0) (hs : Alone i c c')
    (ht : (c.gor i).todo = op :: (c'.gor i).todo) (ho : (c'.gor i).outs = (c.gor i).outs ++ [o]) :
    Effect c.heap c.items op o c'.heap c'.items ∧ c'.leaked = 0 ∧
      (c'.stuckW = true ↔ c.stuckW = true ∨ ((op = .pop ∨ op = .shift) ∧ c.items = [])) := by
  cases Stage.alone hp ht hl hs with
  | before h => subst h; simp at ho
  | scan _ _ _ _ _ hg => rw [hg] at ho; simp at ho
  | got _ _ _ _ _ hg => rw [hg] at ho; simp at ho
  | done e hg h1 h2 =>
    rw [hg] at ho
    simp only [List.append_cancel_left_eq, List.cons.injEq, and_true] at ho
    subst ho
    exact ⟨e, h1, h2⟩
  | beyond h => exact absurd h (Nat.lt_irrefl _)

theorem turns_effects {h : Heap} {l : List (Option Addr)} {calls : Nat → List Op} {log : List (Op × Out)} {c : Conf}
    (ht : Turns (init h l calls) log c) : (∀ i, (c.gor i).pos = .idle) ∧ c.leaked = 0 ∧ Effects h l log c.heap c.items := by
  induction ht with
  | none => exact ⟨fun _ => rfl, rfl, .none⟩
  | @call log c c' i op o _ hs ht hp ho ih =>
    obtain ⟨h1, h2, h3⟩ := ih
    obtain ⟨e, h4, _⟩ := alone_call (h1 i) h2 hs ht ho
    refine ⟨fun j => ?_, h4, .call h3 e⟩
    by_cases hj : j = i
    · subst hj; exact hp
    · rw [alone_other hs j hj]; exact h1 j

/-- Which calls leave the lock behind. -/
theorem turns_stuck {h : Heap} {l : List (Option Addr)} {calls : Nat → List Op} {log : List (Op × Out)} {c : Conf}
    (ht : Turns (init h l calls) log c) : c.stuckW = true ↔ (.pop, .panic) ∈ log ∨ (.shift, .panic) ∈ log := by
  induction ht with
  | none => simp [init]
  | @call log c c' i op o hT hs ht hp ho ih =>
    obtain ⟨h1, h2, _⟩ := turns_effects hT
    obtain ⟨e, _, h5⟩ := alone_call (h1 i) h2 hs ht ho
    rw [h5, ih]
    simp only [List.mem_append, List.mem_singleton, Prod.mk.injEq]
    generalize c.heap = h0 at e
    generalize c'.heap = h1 at e
    generalize c.items = l0 at e ⊢
    generalize c'.items = l1 at e
    cases e <;> simp_all

theorem Alone.trans {i : Nat} {a b c : Conf} (h : Alone i a b) (h' : Alone i b c) : Alone i a c := by
  induction h' with
  | refl => exact h
  | step _ hs ih => exact .step ih hs

theorem getSegs_ne_diverge (h : Heap) (a : Addr) (l : List Str) : getSegs h a l ≠ .diverge := by
  fun_induction getSegs h a l <;> simp_all

theorem get_ne_diverge (h : Heap) (a : Addr) (key : Str) : get h a key ≠ .diverge := getSegs_ne_diverge _ _ _

/-- A lookup of one goroutine comes to its end. -/
theorem scan_ends {i : Nat} {key : Str} (n : Nat) : ∀ (c : Conf) (rest : List Op) (outs : List Out), c.gor i = ⟨.scan key n, rest, outs⟩ →
    n ≤ c.items.length → c.stuckW = false →
    ∃ c' o, Alone i c c' ∧ (c'.gor i).todo = rest ∧ (c'.gor i).pos = .idle ∧ (c'.gor i).outs = outs ++ [o] := by
  induction n with
  | zero =>
    intro c rest outs hg _ _
    exact ⟨_, .found key none, .step .refl (.finish (i := i) (key := key) (by rw [hg])), by simp [answered, put_self, hg],
      by simp [answered, put_self], by simp only [answered, put_self, hg]⟩
  | succ n ih =>
    intro c rest outs hg hn hw
    obtain ⟨d, hd⟩ : ∃ d, c.items[n]? = some d := ⟨_, List.getElem?_eq_getElem (by omega)⟩
    obtain ⟨c1, hs1, hc1, hi1, hw1, hg1⟩ : ∃ c1, Step c i c1 ∧ c1.heap = c.heap ∧ c1.items = c.items ∧ c1.stuckW = false ∧
        c1.gor i = ⟨.got key n d, rest, outs⟩ :=
      ⟨_, .read (by rw [hg]) hw hd, rfl, rfl, hw, by simp only [moved, put_self, hg]⟩
    have ended : ∀ {c2 : Conf} {o : Out}, Step c1 i c2 → c2.gor i = answered c1 i (c1.gor i).todo o i →
        ∃ c' o, Alone i c c' ∧ (c'.gor i).todo = rest ∧ (c'.gor i).pos = .idle ∧ (c'.gor i).outs = outs ++ [o] := by
      intro c2 o hs hg2
      rw [hg1] at hg2
      simp only [answered, put_self, hg1] at hg2
      exact ⟨c2, o, .step (.step .refl hs1) hs, by rw [hg2], by rw [hg2], by rw [hg2]⟩
    cases d with
    | none => exact ended (.nilPanic (key := key) (n := n) (by rw [hg1])) rfl
    | some a =>
      cases hv : get c1.heap a key with
      | panic => exact ended (.getPanic (key := key) (n := n) (a := a) (by rw [hg1]) hv) rfl
      | diverge => exact absurd hv (get_ne_diverge _ _ _)
      | ok r =>
        cases r with
        | some v => exact ended (.hit (key := key) (n := n) (a := a) (v := v) (by rw [hg1]) hv) rfl
        | none =>
          have s2 := Step.miss (c := c1) (i := i) (key := key) (n := n) (a := a) (by rw [hg1]) hv
          obtain ⟨c', o, h1, h2⟩ := ih { c1 with gor := moved c1 i (c1.gor i).todo (.scan key n) } rest outs
            (by simp only [moved, put_self]; rw [hg1]) (by dsimp only; rw [hi1]; omega) hw1
          exact ⟨c', o, (Alone.step (.step .refl hs1) s2).trans h1, h2⟩

/-- A goroutine that is left alone completes its next call if no lock was left behind. -/
theorem call_ends {c : Conf} {i : Nat} {op : Op} {rest : List Op} (hp : (c.gor i).pos = .idle) (ht : (c.gor i).todo = op :: rest)
    (hw : c.stuckW = false) (hl : c.leaked = 0) :
    ∃ c' o, Alone i c c' ∧ (c'.gor i).todo = rest ∧ (c'.gor i).pos = .idle ∧ (c'.gor i).outs = (c.gor i).outs ++ [o] := by
  have ended : ∀ {c2 : Conf} {o : Out}, Step c i c2 → c2.gor i = answered c i rest o i →
      ∃ c' o, Alone i c c' ∧ (c'.gor i).todo = rest ∧ (c'.gor i).pos = .idle ∧ (c'.gor i).outs = (c.gor i).outs ++ [o] := by
    intro c2 o hs hg2
    simp only [answered, put_self] at hg2
    exact ⟨c2, o, .step .refl hs, by rw [hg2], by rw [hg2], by rw [hg2]⟩
  cases op with
  | push d => exact ended (.push hp ht hw hl) rfl
  | unshift d => exact ended (.unshift hp ht hw hl) rfl
  | pop =>
    cases hd : c.items.getLast? with
    | none => exact ended (.removePanic hp ht (.inl rfl) hw hl (List.getLast?_eq_none_iff.1 hd)) rfl
    | some d => exact ended (.pop hp ht hw hl hd) rfl
  | shift =>
    cases hd : c.items with
    | nil => exact ended (.removePanic hp ht (.inr rfl) hw hl hd) rfl
    | cons d l => exact ended (.shift hp ht hw hl hd) rfl
  | getData key =>
    have s1 := Step.start hp ht hw
    obtain ⟨c', o, h1, h2⟩ := scan_ends (i := i) (key := key) c.items.length
      { c with gor := moved c i rest (.scan key c.items.length) } rest (c.gor i).outs
      (by simp only [moved, put_self]) (Nat.le_refl _) hw
    exact ⟨c', o, (Alone.step .refl s1).trans h1, h2⟩
  | assign a k v =>
    cases hs : set c.heap a k v with
    | ok h' => exact ended (.assign hp ht hs) rfl
    | panic => exact ended (.assignPanic hp ht hs) rfl
    | diverge => simp only [Dataset.set] at hs; split at hs <;> cases hs

/-- With the write lock left behind, and everybody outside of the collection, no call on the collection begins. -/
theorem stuck_stays {c c' : Conf} (hi : ∀ i, (c.gor i).pos = .idle) (hw : c.stuckW = true) (hr : Reach c c') :
    (∀ i, (c'.gor i).pos = .idle) ∧ c'.stuckW = true ∧ c'.items = c.items ∧
      ∀ i op rest, (c.gor i).todo = op :: rest → (∀ a k v, op ≠ .assign a k v) → c'.gor i = c.gor i := by
  induction hr with
  | refl => exact ⟨hi, hw, rfl, fun _ _ _ _ _ => rfl⟩
  | @step c1 c2 j _ hs ih =>
    obtain ⟨h1, h2, h3, h4⟩ := ih
    have key : c2.stuckW = true ∧ c2.items = c1.items ∧ (c2.gor j).pos = .idle ∧ ∃ a k v rest, (c1.gor j).todo = .assign a k v :: rest := by
      cases hs with
      | assign _ ht => exact ⟨h2, rfl, by simp only [answered, put_self], _, _, _, _, ht⟩
      | assignPanic _ ht => exact ⟨h2, rfl, by simp only [answered, put_self], _, _, _, _, ht⟩
      | push _ _ hw => rw [h2] at hw; cases hw
      | unshift _ _ hw => rw [h2] at hw; cases hw
      | pop _ _ hw => rw [h2] at hw; cases hw
      | shift _ _ hw => rw [h2] at hw; cases hw
      | removePanic _ _ _ hw => rw [h2] at hw; cases hw
      | start _ _ hw => rw [h2] at hw; cases hw
      | read hp => rw [h1] at hp; cases hp
      | readPanic hp => rw [h1] at hp; cases hp
      | hit hp => rw [h1] at hp; cases hp
      | miss hp => rw [h1] at hp; cases hp
      | getPanic hp => rw [h1] at hp; cases hp
      | nilPanic hp => rw [h1] at hp; cases hp
      | finish hp => rw [h1] at hp; cases hp
    obtain ⟨k1, k2, k3, a, k, v, rest, k4⟩ := key
    refine ⟨fun i => ?_, k1, k2.trans h3, fun i op rest' ht hne => ?_⟩
    · by_cases hij : i = j
      · subst hij; exact k3
      · rw [step_other hs i hij]; exact h1 i
    · by_cases hij : i = j
      · subst hij
        rw [h4 i op rest' ht hne, ht] at k4
        exact absurd (List.cons.inj k4).1 (hne a k v)
      · rw [step_other hs i hij]; exact h4 i op rest' ht hne

end Xcore.CollectionConc
