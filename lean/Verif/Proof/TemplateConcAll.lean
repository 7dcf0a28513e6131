import Verif.Proof.TemplateConcSure

/-!
# All goroutines together
-/

namespace Xcore.Template

open Xcore.Dataset Prog

/-! ## One goroutine -/

theorem langOf_apart {h0 h : Heap} {T : List (Nat × Nat)} (s : Apart h0 T h) (v : Option Val) : langOf h v = langOf h0 v := by
  unfold langOf
  split
  · next a =>
    cases e : h0[a]? with
    | none =>
      cases e' : h[a]? with
      | none => rfl
      | some o =>
        cases o with
        | lang l => rw [(s.shape.lang a l).1 e'] at e; cases e
        | _ => rfl
    | some o =>
      cases o with
      | lang l => rw [(s.shape.lang a l).2 e]
      | _ =>
        cases e' : h[a]? with
        | none => rfl
        | some o' =>
          cases o' with
          | lang l => rw [(s.shape.lang a l).1 e'] at e; cases e
          | _ => rfl
  · rfl

/-- A call that others do not disturb. -/
theorem fine_surely {x : Ext} {th : THeap} {h : Heap} {k : Task} (f : k.Fine x th h) :
    Ev fun n => Surely h [] (executeP x th n k.t (some k.data)) k.out := by
  obtain ⟨n, h', e⟩ := f.alone
  have q := (execute_iff f.compiled f.proper).1 ⟨n, e⟩
  have hp := f.proper
  cases q with
  | data hl r =>
    obtain ⟨l, el, hlang⟩ := langOf_iff (hp.data _ rfl) hp.wf hp.wrapped
    have hr : RowPin h [] false [k.data] := fun q => by cases q
    have hpins : Pins h [] := fun t i q => by cases q
    have g := goes (th := th) hp.wf hp.short ((hlang _).1 hl) f.undisturbed r [k.data] false [] rfl .root trivial hpins
      ⟨.refl h, hp.wf, fun t i q => by cases q⟩ hp.ready hr k.t f.compiled
    refine Ev.mono g fun m e => ?_
    have hn : b!".counter" ∉ split 62 b!"#" := by decide
    exact (sure_getP hp.wf _ _ _ l (Nat.le_refl _) hn el).bind (Surely.look_bind (a := langOf h l) (fun k sk => by rw [langOf_apart sk]) (e.bind .ret))

/-- What a step may do to memory: a loop gives a dataset its number. -/
def Moves (h0 g g' : Heap) : Prop :=
  g' = g ∨ ∃ t i m, Numbered h0 t i ∧ g[t]? = some (.ds m) ∧ g' = g.set t (.ds (m.set b!".counter" (.int .int (i : Nat))))

/-- The goroutine ends after `n` more steps, with the text. -/
def Runs (h0 g : Heap) (p : Prog Str) (out : Str) (n : Nat) : Prop := ∃ T, Pins h0 T ∧ Apart h0 T g ∧ Sure h0 T p out n

theorem Runs.moves {h0 g g' : Heap} {p : Prog Str} {out : Str} {n : Nat} (sh0 : Short h0) (r : Runs h0 g p out n) (m : Moves h0 g g') : Runs h0 g' p out n := by
  obtain ⟨T, h1, h2, h3⟩ := r
  rcases m with rfl | ⟨t, i, m, hn, hm, rfl⟩
  · exact ⟨T, h1, h2, h3⟩
  · exact ⟨T, h1, h2.number sh0 hn hm T (fun p q => Or.inl q) h1, h3⟩

theorem Runs.step {h0 g g' : Heap} {p p' : Prog Str} {out : Str} {n : Nat} (sh0 : Short h0) (r : Runs h0 g p out n) (e : p.step g = some (g', p')) :
    ∃ n', n = n' + 1 ∧ Moves h0 g g' ∧ Runs h0 g' p' out n' := by
  obtain ⟨T, h1, h2, h3⟩ := r
  cases h3 with
  | ret => simp only [Prog.step] at e; cases e
  | read ek s =>
    simp only [Prog.step, ek g h2] at e
    cases e
    exact ⟨_, rfl, Or.inl rfl, T, h1, h2, s⟩
  | @write _ T' f k t i a n hn ef hT s =>
    obtain ⟨m, hm, eq⟩ := ef g h2
    simp only [Prog.step, eq] at e
    cases e
    have hp' : Pins h0 T' := by
      rcases hT with rfl | ⟨rfl, hu⟩
      · exact h1
      · intro t' i' hq j hj
        rcases List.mem_cons.1 hq with q | q
        · cases q; exact hu j hj
        · exact h1 t' i' q j hj
    refine ⟨_, rfl, Or.inr ⟨t, i, m, hn, hm, rfl⟩, T', hp', h2.number sh0 hn hm T' (fun p hp => ?_) hp', s⟩
    rcases hT with rfl | ⟨rfl, hu⟩
    · exact Or.inl hp
    · rcases List.mem_cons.1 hp with q | q
      · exact Or.inr q
      · exact Or.inl q

theorem Runs.next {h0 g : Heap} {p : Prog Str} {out : Str} {n : Nat} (r : Runs h0 g p out n) :
    (p = .ret out ∧ n = 0) ∨ (0 < n ∧ ∃ c, p.step g = some c) := by
  obtain ⟨T, h1, h2, h3⟩ := r
  cases h3 with
  | ret => exact Or.inl ⟨rfl, rfl⟩
  | read ek s => exact Or.inr ⟨by omega, _, rfl⟩
  | write hn ef hT s =>
    obtain ⟨m, hm, eq⟩ := ef g h2
    exact Or.inr ⟨by omega, by simp only [Prog.step, eq]; exact ⟨_, rfl⟩⟩

/-! ## The list of the goroutines -/

/-- Every goroutine runs to its text, in `n` more steps together. -/
inductive AllRun (h0 g : Heap) : List (Prog Str) → List Str → Nat → Prop where
  | nil : AllRun h0 g [] [] 0
  | cons {p : Prog Str} {o : Str} {n : Nat} {ps : List (Prog Str)} {os : List Str} {m : Nat} : Runs h0 g p o n → AllRun h0 g ps os m →
      AllRun h0 g (p :: ps) (o :: os) (n + m)

theorem AllRun.moves {h0 g g' : Heap} {ps : List (Prog Str)} {os : List Str} {n : Nat} (sh0 : Short h0) (a : AllRun h0 g ps os n) (m : Moves h0 g g') :
    AllRun h0 g' ps os n := by
  induction a with
  | nil => exact .nil
  | cons r _ ih => exact .cons (r.moves sh0 m) ih

theorem AllRun.step {h0 g g' : Heap} {ps : List (Prog Str)} {os : List Str} {n : Nat} (sh0 : Short h0) (a : AllRun h0 g ps os n) :
    ∀ {i : Nat} {p p' : Prog Str}, ps[i]? = some p → p.step g = some (g', p') → ∃ n', n = n' + 1 ∧ Moves h0 g g' ∧ AllRun h0 g' (ps.set i p') os n' := by
  induction a with
  | nil => intro i p p' e; simp at e
  | @cons p0 o k ps os m r a ih =>
    intro i p p' e es
    cases i with
    | zero =>
      cases e
      obtain ⟨n', rfl, mv, r'⟩ := r.step sh0 es
      exact ⟨n' + m, by omega, mv, .cons r' (a.moves sh0 mv)⟩
    | succ i =>
      obtain ⟨n', rfl, mv, a'⟩ := ih e es
      exact ⟨k + n', by omega, mv, .cons (r.moves sh0 mv) a'⟩

theorem AllRun.at {h0 g : Heap} {ps : List (Prog Str)} {os : List Str} {n : Nat} (a : AllRun h0 g ps os n) :
    ps.length = os.length ∧ ∀ (i : Nat) (p : Prog Str) (o : Str), ps[i]? = some p → os[i]? = some o → p = .ret o ∨ ∃ c, p.step g = some c := by
  induction a with
  | nil => exact ⟨rfl, by simp⟩
  | cons r _ ih =>
    refine ⟨by simp [ih.1], fun i p o e1 e2 => ?_⟩
    cases i with
    | zero =>
      cases e1; cases e2
      rcases r.next with q | q
      · exact Or.inl q.1
      · exact Or.inr q.2
    | succ i => exact ih.2 i p o e1 e2

theorem AllRun.ended {h0 g : Heap} {ps : List (Prog Str)} {os : List Str} {n : Nat} (a : AllRun h0 g ps os n) : n = 0 ↔ ps = os.map .ret := by
  induction a with
  | nil => simp
  | cons r _ ih =>
    rw [List.map_cons, List.cons.injEq, ← ih]
    rcases r.next with ⟨rfl, rfl⟩ | ⟨hn, c, hc⟩
    · simp
    · constructor
      · intro q; omega
      · rintro ⟨rfl, _⟩; simp only [Prog.step] at hc; cases hc

theorem Moves.same {h0 g g' : Heap} (sh0 : Short h0) (s : Apart h0 [] g) (m : Moves h0 g g') : Apart h0 [] g' := by
  rcases m with rfl | ⟨t, i, m, hn, hm, rfl⟩
  · exact s
  · exact s.number sh0 hn hm [] (fun p q => by cases q) (fun t i q => by cases q)

theorem AllRun.steps {h0 : Heap} (sh0 : Short h0) : ∀ (sched : List Nat) {g g' : Heap} {ps ps' : List (Prog Str)} {os : List Str} {n : Nat}, Apart h0 [] g →
    AllRun h0 g ps os n → stepsAt sched (g, ps) = some (g', ps') → ∃ n', n = sched.length + n' ∧ Apart h0 [] g' ∧ AllRun h0 g' ps' os n' := by
  intro sched
  induction sched with
  | nil =>
    intro g g' ps ps' os n s a e
    simp only [stepsAt] at e
    cases e
    exact ⟨n, by simp, s, a⟩
  | cons i l ih =>
    intro g g' ps ps' os n s a e
    simp only [stepsAt, stepAt] at e
    cases ep : ps[i]? with
    | none => rw [ep] at e; cases e
    | some p =>
      rw [ep] at e
      simp only at e
      cases es : p.step g with
      | none => rw [es] at e; cases e
      | some c =>
        obtain ⟨g1, p1⟩ := c
        rw [es] at e
        obtain ⟨n', rfl, mv, a'⟩ := a.step sh0 ep es
        obtain ⟨n'', rfl, q1, q2⟩ := ih (mv.same sh0 s) a' e
        exact ⟨n'', by simp only [List.length_cons]; omega, q1, q2⟩

theorem all_fine {x : Ext} {th : THeap} {h : Heap} : ∀ (tasks : List Task), (∀ k ∈ tasks, k.Fine x th h) →
    Ev fun n => ∃ m, AllRun h h (tasks.map fun k => executeP x th n k.t (some k.data)) (tasks.map (·.out)) m := by
  intro tasks
  induction tasks with
  | nil => intro _; exact .now fun _ => ⟨0, .nil⟩
  | cons k l ih =>
    intro hf
    have f := hf k (by simp)
    refine (fine_surely f).and (ih fun k hk => hf k (by simp [hk])) fun m e1 e2 => ?_
    obtain ⟨n1, e1⟩ := e1
    obtain ⟨n2, e2⟩ := e2
    exact ⟨n1 + n2, .cons ⟨[], fun t i q => (by cases q), ⟨.refl h, f.proper.wf, fun t i q => by cases q⟩, e1⟩ e2⟩

/-! ## A goroutine alone -/

theorem alone_iff_steps {p : Prog Str} : ∀ {h h' : Heap} {a : Str}, p.alone h = .ok (h', a) ↔ ∃ m, stepsAt (List.replicate m 0) (h, [p]) = some (h', [.ret a]) := by
  have dead : ∀ {q : Prog Str} {h h' : Heap} {a : Str}, (∀ g, q.step g = none) → q ≠ .ret a → ¬ ∃ m, stepsAt (List.replicate m 0) (h, [q]) = some (h', [.ret a]) := by
    rintro q h h' a hq hne ⟨m, e⟩
    cases m with
    | zero => simp only [List.replicate, stepsAt] at e; injection e with e; injection e with _ e; injection e with e; exact hne e
    | succ m => simp [List.replicate_succ, stepsAt, stepAt, hq] at e
  induction p with
  | ret b =>
    intro h h' a
    constructor
    · intro e; simp only [Prog.alone] at e; cases e; exact ⟨0, rfl⟩
    · rintro ⟨m, e⟩
      cases m with
      | zero => simp only [List.replicate, stepsAt] at e; cases e; rfl
      | succ m => simp [List.replicate_succ, stepsAt, stepAt, Prog.step] at e
  | panic => intro h h' a; exact ⟨fun e => (by simp only [Prog.alone] at e; cases e), fun e => absurd e (dead (fun _ => rfl) (by simp))⟩
  | diverge => intro h h' a; exact ⟨fun e => (by simp only [Prog.alone] at e; cases e), fun e => absurd e (dead (fun _ => rfl) (by simp))⟩
  | read k ih =>
    intro h h' a
    rw [Prog.alone, ih]
    constructor
    · rintro ⟨m, e⟩; exact ⟨m + 1, e⟩
    · rintro ⟨m, e⟩
      cases m with
      | zero => simp only [List.replicate, stepsAt] at e; cases e
      | succ m => exact ⟨m, e⟩
  | write f k ih =>
    intro h h' a
    rw [Prog.alone]
    cases ef : f h with
    | ok h1 =>
      simp only
      rw [ih]
      constructor
      · rintro ⟨m, e⟩
        refine ⟨m + 1, ?_⟩
        simp only [List.replicate_succ, stepsAt, stepAt, List.getElem?_cons_zero, Prog.step, ef, Option.map_some, Option.bind_some, List.set_cons_zero]
        exact e
      · rintro ⟨m, e⟩
        cases m with
        | zero => simp only [List.replicate, stepsAt] at e; cases e
        | succ m =>
          simp only [List.replicate_succ, stepsAt, stepAt, List.getElem?_cons_zero, Prog.step, ef, Option.map_some, Option.bind_some, List.set_cons_zero] at e
          exact ⟨m, e⟩
    | panic | diverge =>
      refine ⟨fun e => by simp at e, ?_⟩
      rintro ⟨m, e⟩
      cases m with
      | zero => simp only [List.replicate, stepsAt] at e; cases e
      | succ m =>
        simp only [List.replicate_succ, stepsAt, stepAt, List.getElem?_cons_zero, Prog.step, ef, Option.map_some, Option.bind_some, List.set_cons_zero] at e
        exact absurd ⟨m, e⟩ (dead (fun _ => rfl) (by simp))

theorem alone_panic_iff_steps {p : Prog Str} : ∀ {h : Heap}, p.alone h = .panic ↔ ∃ m g, stepsAt (List.replicate m 0) (h, [p]) = some (g, [.panic]) := by
  have dead : ∀ {q : Prog Str} {h : Heap}, (∀ g, q.step g = none) → q ≠ .panic → ¬ ∃ m g, stepsAt (List.replicate m 0) (h, [q]) = some (g, [.panic]) := by
    rintro q h hq hne ⟨m, g, e⟩
    cases m with
    | zero => simp only [List.replicate, stepsAt] at e; injection e with e; injection e with _ e; injection e with e; exact hne e
    | succ m => simp [List.replicate_succ, stepsAt, stepAt, hq] at e
  induction p with
  | ret b => intro h; exact ⟨fun e => (by simp only [Prog.alone] at e; cases e), fun e => absurd e (dead (fun _ => rfl) (by simp))⟩
  | panic => intro h; exact ⟨fun _ => ⟨0, h, rfl⟩, fun _ => rfl⟩
  | diverge => intro h; exact ⟨fun e => (by simp only [Prog.alone] at e; cases e), fun e => absurd e (dead (fun _ => rfl) (by simp))⟩
  | read k ih =>
    intro h
    rw [Prog.alone, ih]
    constructor
    · rintro ⟨m, g, e⟩; exact ⟨m + 1, g, e⟩
    · rintro ⟨m, g, e⟩
      cases m with
      | zero => simp only [List.replicate, stepsAt] at e; cases e
      | succ m => exact ⟨m, g, e⟩
  | write f k ih =>
    intro h
    rw [Prog.alone]
    cases ef : f h with
    | ok h1 =>
      simp only
      rw [ih]
      constructor
      · rintro ⟨m, g, e⟩
        refine ⟨m + 1, g, ?_⟩
        simp only [List.replicate_succ, stepsAt, stepAt, List.getElem?_cons_zero, Prog.step, ef, Option.map_some, Option.bind_some, List.set_cons_zero]
        exact e
      · rintro ⟨m, g, e⟩
        cases m with
        | zero => simp only [List.replicate, stepsAt] at e; cases e
        | succ m =>
          simp only [List.replicate_succ, stepsAt, stepAt, List.getElem?_cons_zero, Prog.step, ef, Option.map_some, Option.bind_some, List.set_cons_zero] at e
          exact ⟨m, g, e⟩
    | panic =>
      refine ⟨fun _ => ⟨1, h, ?_⟩, fun _ => rfl⟩
      simp only [List.replicate_succ, List.replicate_zero, stepsAt, stepAt, List.getElem?_cons_zero, Prog.step, ef, Option.map_some, Option.bind_some,
        List.set_cons_zero]
    | diverge =>
      refine ⟨fun e => by simp at e, ?_⟩
      rintro ⟨m, g, e⟩
      cases m with
      | zero => simp only [List.replicate, stepsAt] at e; cases e
      | succ m =>
        simp only [List.replicate_succ, stepsAt, stepAt, List.getElem?_cons_zero, Prog.step, ef, Option.map_some, Option.bind_some, List.set_cons_zero] at e
        exact absurd ⟨m, g, e⟩ (dead (fun _ => rfl) (by simp))

end Xcore.Template
