import Verif.Spec.NestedLinear
import Verif.Proof.NestedAtomic

/-! # Histories of nested thread-safe objects -/

namespace Xcore.Nested

open Dataset Lock

variable {T : Pairs} {K : Paths}

/-- Instructions that do not lead to a change of memory. -/
def quiet : Instr → Bool
  | .enter _ _ _ x => quiet x
  | .await _ _ x => quiet x
  | .call op _ | .body op _ => !op.writes
  | .change _ _ => false
  | _ => true

theorem getStep_quiet {h : Heap} {ans : Option Val} {m : AMap Val} {s s' : List Instr} {segs : List Str} {h' : Heap} {ans' : Option Val}
    (hs : ∀ x ∈ s, quiet x = true) (e : getStep h ans m s segs = .next h' ans' s') : h' = h ∧ ∀ x ∈ s', quiet x = true := by
  have cons : ∀ x, quiet x = true → ∀ y ∈ x :: s, quiet y = true := by
    intro x hx y hy
    rcases List.mem_cons.1 hy with rfl | hy
    · exact hx
    · exact hs y hy
  match segs with
  | [] => cases e; exact ⟨rfl, hs⟩
  | [_] => cases e; exact ⟨rfl, hs⟩
  | p :: p2 :: rest =>
    simp only [getStep] at e
    repeat' split at e
    all_goals (cases e; refine ⟨rfl, ?_⟩)
    all_goals first | exact hs | exact cons _ rfl

theorem exec_quiet {h : Heap} {ans : Option Val} {x : Instr} {s s' : List Instr} {h' : Heap} {ans' : Option Val} (hx : quiet x = true)
    (hs : ∀ y ∈ s, quiet y = true) (e : exec h ans x s = .next h' ans' s') : h' = h ∧ ∀ y ∈ s', quiet y = true := by
  have cons : ∀ x, quiet x = true → ∀ y ∈ x :: s, quiet y = true := by
    intro x hx y hy
    rcases List.mem_cons.1 hy with rfl | hy
    · exact hx
    · exact hs y hy
  have app : ∀ l : List Instr, (∀ y ∈ l, quiet y = true) → ∀ y ∈ l ++ s, quiet y = true := by
    intro l hl y hy
    rcases List.mem_append.1 hy with hy | hy
    · exact hl y hy
    · exact hs y hy
  have after : ∀ l : List Instr, (∀ y ∈ l, quiet y = true) → ∀ y ∈ andThen l s, quiet y = true := by
    intro l hl y hy
    cases s with
    | nil => exact hl y hy
    | cons r s =>
      simp only [andThen, List.mem_cons, List.mem_append] at hy
      rcases hy with rfl | hy | hy
      · exact hs _ (by simp)
      · exact hl y hy
      · exact hs y (by simp [hy])
  have prints : ∀ l : List Nat, ∀ y ∈ l.map (Instr.call .print), quiet y = true := by
    intro l y hy
    obtain ⟨_, _, rfl⟩ := List.mem_map.1 hy
    rfl
  have clones : ∀ l : List Nat, ∀ y ∈ l.map (Instr.call .clone), quiet y = true := by
    intro l y hy
    obtain ⟨_, _, rfl⟩ := List.mem_map.1 hy
    rfl
  have clones' : ∀ l, ∀ y ∈ cloneElems l, quiet y = true := by
    intro l y hy
    obtain ⟨o, _, rfl⟩ := List.mem_map.1 hy
    cases o <;> rfl
  cases x with
  | call op a =>
    simp only [exec, callStep] at e
    split at e
    · cases e; exact ⟨rfl, cons _ hx⟩
    · cases op with
      | get segs => exact getStep_quiet hs e
      | getString segs =>
        cases e
        refine ⟨rfl, ?_⟩
        intro y hy
        rcases List.mem_cons.1 hy with rfl | hy
        · rfl
        · exact cons _ rfl y hy
      | set k v => cases hx
      | del k => cases hx
      | print => cases e; exact ⟨rfl, app _ (prints _)⟩
      | clone => cases e; exact ⟨rfl, app _ (clones _)⟩
    · split at e <;> cases e
      · exact ⟨rfl, app _ (prints _)⟩
      · exact ⟨rfl, app _ (clones' _)⟩
      · exact ⟨rfl, hs⟩
    · split at e <;> cases e
      · exact ⟨rfl, cons _ rfl⟩
      · exact ⟨rfl, app _ (clones' _)⟩
      · exact ⟨rfl, hs⟩
    · split at e <;> cases e
      · exact ⟨rfl, cons _ rfl⟩
      · exact ⟨rfl, hs⟩
    · cases e; exact ⟨rfl, hs⟩
  | body op a =>
    simp only [exec] at e
    split at e
    · cases e; exact ⟨rfl, cons _ hx⟩
    · split at e <;> cases e
      exact ⟨rfl, hs⟩
  | elem locked c i rest =>
    simp only [exec] at e
    split at e
    · split at e
      · cases e; exact ⟨rfl, hs⟩
      · cases e
        refine ⟨rfl, ?_⟩
        split
        · exact after _ (by simp [quiet, Op.writes])
        · exact cons _ rfl
    · cases e; exact ⟨rfl, hs⟩
  | elems c => cases e; exact ⟨rfl, app _ (prints _)⟩
  | printAnswer a =>
    simp only [exec] at e
    split at e <;> cases e
    · exact ⟨rfl, cons _ rfl⟩
    · exact ⟨rfl, hs⟩
  | change op c => cases hx
  | size c key => cases e; exact ⟨rfl, after _ (by simp [quiet])⟩
  | scan c n key =>
    cases n <;> cases e
    · exact ⟨rfl, hs⟩
    · exact ⟨rfl, cons _ rfl⟩
  | pick c n key =>
    simp only [exec] at e
    split at e <;> cases e
    · exact ⟨rfl, after _ (by simp [quiet])⟩
    · exact ⟨rfl, after _ (by simp [quiet, Op.writes])⟩
  | check c n key =>
    simp only [exec] at e
    split at e <;> cases e
    · exact ⟨rfl, hs⟩
    · exact ⟨rfl, cons _ rfl⟩
  | skip => cases e; exact ⟨rfl, hs⟩
  | fail => cases e
  | enter => cases e
  | await => cases e
  | release => cases e

/-- A step of a goroutine whose call does not change memory. -/
theorem quiet_move {c c' : Conf} {i : Nat} (hs : ∀ y ∈ (c.gor i).stack, quiet y = true) (hm : Move c i c') :
    c'.heap = c.heap ∧ ∀ y ∈ (c'.gor i).stack, quiet y = true := by
  cases hm with
  | run hst hl he =>
    rw [hst] at hs
    simp only [upd_self]
    exact exec_quiet (hs _ (by simp)) (fun y hy => hs y (by simp [hy])) he
  | panic hst hl he =>
    rw [hst] at hs
    simp only [Conf.go, upd_self]
    exact ⟨trivial, fun y hy => hs y (List.mem_cons_of_mem _ (List.mem_filter.1 hy).1)⟩
  | rlock hst | announce hst | lock hst | runlock hst | unlock hst =>
    rw [hst] at hs
    simp only [Conf.go, upd_self]
    refine ⟨trivial, fun y hy => ?_⟩
    have h0 := hs _ (List.mem_cons_self ..)
    first
    | exact hs y (List.mem_cons_of_mem _ hy)
    | (simp only [List.mem_cons] at hy
       rcases hy with rfl | rfl | hy
       · exact h0
       · rfl
       · exact hs y (by simp [hy]))
    | (simp only [List.mem_cons] at hy
       rcases hy with rfl | hy
       · exact h0
       · exact hs y (by simp [hy]))

/-- The stack consists of releases. -/
def Fin (s : List Instr) : Prop := ∀ x ∈ s, ∃ m d a, x = .release m d a

theorem Fin.move {c c' : Conf} {i : Nat} (hs : Fin (c.gor i).stack) (hm : Move c i c') :
    c'.heap = c.heap ∧ Fin (c'.gor i).stack ∧ (c'.gor i).ans = (c.gor i).ans := by
  cases hst : (c.gor i).stack with
  | nil => exact absurd hst hm.busy
  | cons x s =>
    rw [hst] at hs
    obtain ⟨m, d, a, rfl⟩ := hs x (by simp)
    have hm := hm.tryMove
    cases m <;>
      (simp only [tryMove, hst] at hm; cases hm; simp only [Conf.go, upd_self]
       exact ⟨trivial, fun x hx => hs x (by simp [hx]), trivial⟩)

/-- Where a call is that has not had its effect. -/
inductive Pre (T : Pairs) (K : Paths) (h : Heap) : Call → List Instr → Prop where
  | get {a : Nat} {key : Str} {s : List Instr} : K a key → Stage T h a (split 62 key) s → Pre T K h (.ds (.get (split 62 key)) a) s
  | set {a d : Nat} {key : Str} {v : Val} {s : List Instr} : T a d → WStage (.set key v) a d s → Pre T K h (.ds (.set key v) a) s
  | del {a d : Nat} {key : Str} {s : List Instr} : T a d → WStage (.del key) a d s → Pre T K h (.ds (.del key) a) s
  | col {op : ColOp} {c : Nat} {s : List Instr} : CStage op c s → Pre T K h (.col op c) s
  | quiet {call : Call} {s : List Instr} : (∀ h ans, Does K call h ans h) → s ≠ [] → (∀ y ∈ s, quiet y = true) → Pre T K h call s

theorem Pre.busy {h : Heap} {call : Call} {s : List Instr} (hp : Pre T K h call s) : s ≠ [] := by
  rintro rfl
  cases hp with
  | get _ h => cases h
  | set _ h => cases h
  | del _ h => cases h
  | col h => cases h
  | quiet _ h => exact h rfl

theorem Pre.begins {c : Conf} {call : Call} (ho : Tidy T K c) (ha : Allowed T call) : Pre T K c.heap call call.code := by
  cases call with
  | ds op a =>
    cases op with
    | get segs =>
      by_cases hk : ∃ key, K a key ∧ segs = split 62 key
      · obtain ⟨key, hk, rfl⟩ := hk
        obtain ⟨d, hd⟩ := (ho.2 a key hk).pair
        exact .get hk (.call (R := []) nofun (.refl hd))
      · exact .quiet (fun h ans => ⟨rfl, fun key h1 h2 => absurd ⟨key, h1, h2⟩ hk⟩) nofun (by simp [Call.code, Nested.quiet, Op.writes])
    | set key v => obtain ⟨d, hd⟩ := ha; exact .set hd .call
    | del key => obtain ⟨d, hd⟩ := ha; exact .del hd .call
    | _ => exact .quiet (fun _ _ => rfl) nofun (by simp [Call.code, Nested.quiet, Op.writes])
  | col op col => exact .col .enter
  | getData => exact .quiet (fun _ _ => rfl) nofun (by simp [Call.code, Nested.quiet])
  | getDataString => exact .quiet (fun _ _ => rfl) nofun (by simp [Call.code, Nested.quiet])
  | lang => exact .quiet (fun _ _ => rfl) nofun (by simp [Call.code, Nested.quiet])

theorem Rels.fin {s : List Instr} (h : Rels s) : Fin s := fun x hx => by
  obtain ⟨w, rfl⟩ := h x hx
  exact ⟨_, _, _, rfl⟩

theorem fin_one {m : Mode} {d : Bool} {a : Nat} {s : List Instr} (h : s = [.release m d a]) : Fin s := by
  subst h
  intro x hx
  simp only [List.mem_singleton] at hx
  exact ⟨m, d, a, hx⟩

/-- A step of a goroutine whose call has not had its effect: it has it, or nothing is changed. -/
theorem Pre.move {c c' : Conf} {i : Nat} {call : Call} (ho : Tidy T K c) (hcalm : Calm c i) (hs : Pre T K c.heap call (c.gor i).stack)
    (hm : Move c i c') :
    (c'.heap = c.heap ∧ Pre T K c'.heap call (c'.gor i).stack) ∨ (Does K call c.heap (c'.gor i).ans c'.heap ∧ Fin (c'.gor i).stack) := by
  generalize hst : (c.gor i).stack = st at hs
  cases hs with
  | @get a key _ hk h =>
    subst hst
    obtain ⟨h1, h2 | ⟨h2, h3⟩⟩ := h.move ho.1 (ho.2 _ _ hk) hm
    · exact .inl ⟨h1, .get hk h2⟩
    · refine .inr ⟨⟨h1, ?_⟩, h2.fin⟩
      intro key' _ e
      simp only [Dataset.get, ← e]
      exact h3
  | @set a d key v _ ht h =>
    subst hst
    rcases h.move rfl rfl (ho.1 _ _ ht).1 hm with ⟨h1, h2⟩ | ⟨m, h1, h2, h3⟩
    · exact .inl ⟨h1, .set ht h2⟩
    · refine .inr ⟨?_, fin_one h3⟩
      simp only [datasetStep] at h2
      simp only [Does, Dataset.set, private_target (ho.1 _ _ ht).1 (ho.1 _ _ ht).2, entries, h1]
      injection h2 with h1
      rw [h1]
  | @del a d key _ ht h =>
    subst hst
    rcases h.move rfl rfl (ho.1 _ _ ht).1 hm with ⟨h1, h2⟩ | ⟨m, h1, h2, h3⟩
    · exact .inl ⟨h1, .del ht h2⟩
    · refine .inr ⟨?_, fin_one h3⟩
      simp only [datasetStep] at h2
      simp only [Does, Dataset.del, private_target (ho.1 _ _ ht).1 (ho.1 _ _ ht).2, entries, h1]
      injection h2 with h1
      rw [h1]
  | @col op col _ h =>
    subst hst
    rcases h.move hcalm hm with ⟨h1, h2⟩ | ⟨h1, h2⟩
    · exact .inl ⟨h1, .col h2⟩
    · refine .inr ⟨?_, fin_one h2⟩
      cases op with
      | unshift d => simp only [exec, changeStep] at h1; injection h1 with h1; exact h1.symm
      | push d => simp only [exec, changeStep] at h1; injection h1 with h1; exact h1.symm
      | shift =>
        simp only [exec, changeStep] at h1
        split at h1
        · rename_i h' d hsh
          injection h1 with h1 h2
          exact ⟨d, by rw [hsh, h1], h2.symm⟩
        · cases h1
      | pop =>
        simp only [exec, changeStep] at h1
        split at h1
        · rename_i h' d hsh
          injection h1 with h1 h2
          exact ⟨d, by rw [hsh, h1], h2.symm⟩
        · cases h1
      | count => simp only [exec, changeStep] at h1; injection h1 with h1 h2; exact ⟨h1.symm, h2.symm⟩
      | get n => simp only [exec, changeStep] at h1; injection h1 with h1 h2; exact ⟨h1.symm, h2.symm⟩
  | quiet hd hne hq =>
    subst hst
    obtain ⟨h1, h2⟩ := quiet_move hq hm
    by_cases he : (c'.gor i).stack = []
    · refine .inr ⟨by rw [h1]; exact hd _ _, ?_⟩
      rw [he]
      exact nofun
    · exact .inl ⟨h1, .quiet hd he h2⟩

theorem Pre.mono {h h' : Heap} {call : Call} {s : List Instr} (hs : Pre T K h call s)
    (hh : ∀ w d, T w d → .release .read true w ∈ s → h'[d]? = h[d]?) (hc : ∀ (b : Nat) l, h[b]? = some (.colTS l) → ∃ l', h'[b]? = some (.colTS l')) :
    Pre T K h' call s := by
  cases hs with
  | get h1 h2 => exact .get h1 (h2.mono hh hc)
  | set h1 h2 => exact .set h1 h2
  | del h1 h2 => exact .del h1 h2
  | col h1 => exact .col h1
  | quiet h1 h2 h3 => exact .quiet h1 h2 h3

/-- Where a goroutine is, and where it would be with objects whose calls take effect at once. -/
inductive Matches (T : Pairs) (K : Paths) (h : Heap) (g : Gor) : Phase → Prop where
  | idle : g.stack = [] → Matches T K h g .idle
  | waiting {call : Call} : Pre T K h call g.stack → Matches T K h g (.waiting call)
  | done : Fin g.stack → g.stack ≠ [] → Matches T K h g (.done g.ans)

theorem Matches.keeps {h0 : Heap} {c c' : Conf} {i : Nat} {who : Option Nat} (hr : Run (AllPrivate T) (start h0) c) (hs : Step c who c')
    (hp' : AllPrivate T c') (hw : who ≠ some i) {p : Phase} (hm : Matches T K c.heap (c.gor i) p) : Matches T K c'.heap (c.gor i) p := by
  have hk := hs.keeps hr hp' hw
  cases hm with
  | idle h => exact .idle h
  | waiting h => exact .waiting (h.mono hk.1 hk.2)
  | done h1 h2 => exact .done h1 h2

theorem History.run {h0 : Heap} {w : List Obs} {c : Conf} (h : History T (Tidy T K) (Nested.start h0) w c) :
    Run (AllPrivate T) (Nested.start h0) c ∧ Tidy T K c := by
  induction h with
  | start h => exact ⟨.refl h.1, h⟩
  | begins _ h1 h2 _ h3 ih => exact ⟨.step ih.1 (.begin (Decidable.not_not.1 h1) h2) nofun h3.1, h3⟩
  | makes _ h1 ih => exact ⟨.step ih.1 .alloc nofun h1.1, h1⟩
  | goes _ h1 h2 _ h3 ih => exact ⟨.step ih.1 (.move h1) (fun i e => by cases e; exact h2) h3.1, h3⟩
  | ends _ h1 h2 _ h3 ih => exact ⟨.step ih.1 (.move h1) (fun i e => by cases e; exact h2) h3.1, h3⟩

/-- A step of a call: the objects whose calls take effect at once do the same. -/
theorem Atomic.move {h0 : Heap} {w : List Obs} {c c' : Conf} {i : Nat} {f : Nat → Phase} (hr : Run (AllPrivate T) (Nested.start h0) c)
    (ho : Tidy T K c) (ho' : Tidy T K c') (hm : Move c i c') (hcalm : Calm c i) (ha : Atomic K h0 w c.heap f)
    (hf : ∀ j, Matches T K c.heap (c.gor j) (f j)) :
    ∃ f', Atomic K h0 w c'.heap f' ∧ (∀ j, j ≠ i → Matches T K c'.heap (c'.gor j) (f' j)) ∧
      ((∃ call, f' i = .waiting call ∧ Pre T K c'.heap call (c'.gor i).stack) ∨ (f' i = .done (c'.gor i).ans ∧ Fin (c'.gor i).stack)) := by
  have hoth : ∀ j, j ≠ i → Matches T K c'.heap (c'.gor j) (f j) := by
    intro j hj
    rw [hm.gor_ne hj]
    exact (hf j).keeps hr (.move hm) ho'.1 (by simpa using fun e => hj e.symm)
  have hi := hf i
  cases hfi : f i with
  | idle =>
    rw [hfi] at hi
    cases hi with
    | idle h => exact absurd h hm.busy
  | waiting call =>
    rw [hfi] at hi
    cases hi with
    | waiting h =>
      rcases h.move ho hcalm hm with ⟨h1, h2⟩ | ⟨h1, h2⟩
      · exact ⟨f, by rw [h1]; exact ha, hoth, .inl ⟨call, hfi, h2⟩⟩
      · refine ⟨_, .takes ha hfi h1, ?_, .inr ⟨by simp, h2⟩⟩
        intro j hj
        simp only [hj, if_false]
        exact hoth j hj
  | done ans =>
    rw [hfi] at hi
    generalize hg : c.gor i = g at hi
    cases hi with
    | done h h' =>
      subst hg
      obtain ⟨h1, h2, h3⟩ := Fin.move h hm
      exact ⟨f, by rw [h1]; exact ha, hoth, .inr ⟨by rw [hfi, h3], h2⟩⟩

/-- Every history is one of objects whose calls take effect at once. -/
theorem History.atomic {h0 : Heap} {w : List Obs} {c : Conf} (h : History T (Tidy T K) (Nested.start h0) w c) :
    ∃ f, Atomic K h0 w c.heap f ∧ ∀ j, Matches T K c.heap (c.gor j) (f j) := by
  induction h with
  | start => exact ⟨_, .start, fun _ => .idle rfl⟩
  | @begins w c i call hh h1 h2 h3 h4 ih =>
    obtain ⟨f, ha, hf⟩ := ih
    have hi : f i = .idle := by
      have := hf i
      rw [Busy, Decidable.not_not] at h1
      generalize f i = p at this
      cases this with
      | idle => rfl
      | waiting h => exact absurd h1 h.busy
      | done _ h => exact absurd h1 h
    refine ⟨_, .begins (call := call) ha hi, ?_⟩
    intro j
    by_cases hj : j = i
    · subst hj
      simp only [if_true, Conf.go, upd_self]
      exact .waiting (.begins hh.run.2 h3)
    · simp only [hj, if_false, Conf.go, upd_ne _ _ hj]
      exact hf j
  | @makes w c o hh h1 ih =>
    obtain ⟨f, ha, hf⟩ := ih
    exact ⟨f, .makes ha, fun j => Matches.keeps hh.run.1 (.alloc (o := o)) h1.1 (by simp) (hf j)⟩
  | @goes w c c' i hh h1 h2 h3 h4 ih =>
    obtain ⟨f, ha, hf⟩ := ih
    obtain ⟨f', ha', hf', hi⟩ := Atomic.move hh.run.1 hh.run.2 h4 h1 h2 ha hf
    refine ⟨f', ha', fun j => ?_⟩
    by_cases hj : j = i
    · subst hj
      rcases hi with ⟨call, e, hp⟩ | ⟨e, hp⟩
      · rw [e]; exact .waiting hp
      · rw [e]; exact .done hp h3
    · exact hf' j hj
  | @ends w c c' i hh h1 h2 h3 h4 ih =>
    obtain ⟨f, ha, hf⟩ := ih
    obtain ⟨f', ha', hf', hi⟩ := Atomic.move hh.run.1 hh.run.2 h4 h1 h2 ha hf
    rcases hi with ⟨call, e, hp⟩ | ⟨e, hp⟩
    · exact absurd hp.busy h3
    · refine ⟨_, .ends ha' e, fun j => ?_⟩
      by_cases hj : j = i
      · subst hj
        simp only [if_true]
        exact .idle (Decidable.not_not.1 h3)
      · simp only [hj, if_false]
        exact hf' j hj

/-- What is seen of an action. -/
def seen (c' : Conf) : Act → List Obs
  | .move i => if (c'.gor i).stack = [] then [.ends i (c'.gor i).ans] else []
  | .begin i call => [.begins i call]

/-- The actions of the first `n` goroutines, `p` holding in every configuration, with what is seen of them. -/
def playH (p : Conf → Bool) (n : Nat) : Conf → List Act → Option (List Obs × Conf)
  | c, [] => some ([], c)
  | c, x :: xs =>
    if decide (x.who < n) && (List.range n).all (calmB c) then
      match act c x with
      | some c' => if p c' then (playH p n c' xs).map fun r => (seen c' x ++ r.1, r.2) else none
      | none => none
    else none

theorem history_of_play {P : Conf → Prop} {p : Conf → Bool} {n : Nat} (hp : ∀ c, (∀ i, n ≤ i → (c.gor i).stack = []) → p c = true → P c) {c0 : Conf} :
    ∀ {xs : List Act} {w w' : List Obs} {c c' : Conf}, History T P c0 w c → (∀ i, n ≤ i → (c.gor i).stack = []) →
      (∀ i call, .begin i call ∈ xs → Allowed T call) → playH p n c xs = some (w', c') → History T P c0 (w ++ w') c' := by
  intro xs
  induction xs with
  | nil =>
    intro w w' c c' h _ _ e
    cases e
    simpa using h
  | cons x xs ih =>
    intro w w' c c' h hid hal e
    simp only [playH] at e
    split at e
    · rename_i hc
      simp only [Bool.and_eq_true, decide_eq_true_eq, List.all_eq_true, List.mem_range] at hc
      obtain ⟨h1, h2⟩ := hc
      cases ha : act c x with
      | none => rw [ha] at e; cases e
      | some c1 =>
        rw [ha] at e
        simp only at e
        split at e
        · rename_i hpc
          cases hr : playH p n c1 xs with
          | none => rw [hr] at e; cases e
          | some r =>
            rw [hr] at e
            cases e
            have hid1 : ∀ i, n ≤ i → (c1.gor i).stack = [] := by
              intro i hi
              rw [act_idle ha (by omega)]
              exact hid i hi
            have hP := hp c1 hid1 hpc
            have h3 : History T P c0 (w ++ seen c1 x) c1 := by
              cases x with
              | move i =>
                have hm := move_of_tryMove ha
                have hcalm := calm_of_calmB (h2 i h1)
                simp only [seen]
                split
                · rename_i hs
                  exact .ends h hm hcalm (fun hb => hb hs) hP
                · rename_i hs
                  simpa using History.goes h hm hcalm hs hP
              | begin i call =>
                simp only [act] at ha
                split at ha
                · rename_i hc
                  cases ha
                  exact .begins h (fun hb => hb hc.1) (legal_of_legalB hc.2) (hal i call (List.mem_cons_self ..)) hP
                · cases ha
            have := ih (w' := r.1) (c' := r.2) h3 hid1 (fun i call hm => hal i call (by simp [hm])) hr
            simpa [List.append_assoc] using this
        · cases e
    · cases e

theorem history_example {P : Conf → Prop} {p : Conf → Bool} {n : Nat} {h0 : Heap}
    (hp : ∀ c, (∀ i, n ≤ i → (c.gor i).stack = []) → p c = true → P c) (hs : P (start h0)) {xs : List Act}
    (hal : ∀ i call, .begin i call ∈ xs → Allowed T call) {w : List Obs}
    (e : (playH p n (start h0) xs).map (·.1) = some w) : ∃ c, History T P (start h0) w c := by
  cases h : playH p n (start h0) xs with
  | none => rw [h] at e; cases e
  | some r =>
    rw [h] at e
    cases e
    exact ⟨r.2, by simpa using history_of_play hp (.start hs) (fun _ _ => rfl) hal h⟩

/-- The calls of the example: a `Get` behind an element, and those that take the element out and change it. -/
def oddGet : Call := .ds (.get (split 62 b!"c>0>x")) 1
def oddSet : Call := .ds (.set b!"x" (.int .int 2)) 4

/-- What is seen of it. -/
def oddHistory : List Obs := [.begins 0 oddGet, .begins 1 (.col .shift 2), .ends 1 (some (.ptr 4)), .begins 1 oddSet, .ends 1 (some (.ptr 4)),
  .ends 0 (some (.int .int 2))]

/-- The memory after the collection has changed. -/
def oddHeap1 : Heap := [.ds [(b!"c", .ptr 2)], .dsTS (some 0), .colTS [some 6],
  .ds [(b!"x", .int .int 1)], .dsTS (some 3), .ds [(b!"x", .int .int 3)], .dsTS (some 5)]

/-- And after the element has changed. -/
def oddHeap2 : Heap := [.ds [(b!"c", .ptr 2)], .dsTS (some 0), .colTS [some 6],
  .ds [(b!"x", .int .int 2)], .dsTS (some 3), .ds [(b!"x", .int .int 3)], .dsTS (some 5)]

/-- Where the `Get` can be. -/
def OddGet (p : Phase) : Prop := p = .waiting oddGet ∨ p = .done (some (.int .int 1)) ∨ p = .done (some (.int .int 3))

/-- Memory and the goroutines after `n` observations, if calls take effect at once. -/
def Odd : Nat → Heap → Phase → Phase → Prop
  | 0, h, f0, f1 => h = players ∧ f0 = .idle ∧ f1 = .idle
  | 1, h, f0, f1 => h = players ∧ OddGet f0 ∧ f1 = .idle
  | 2, h, f0, f1 => OddGet f0 ∧ (h = players ∧ f1 = .waiting (.col .shift 2) ∨ h = oddHeap1 ∧ ∃ a, f1 = .done a)
  | 3, h, f0, f1 => OddGet f0 ∧ h = oddHeap1 ∧ f1 = .idle
  | 4, h, f0, f1 => OddGet f0 ∧ (h = oddHeap1 ∧ f1 = .waiting oddSet ∨ h = oddHeap2 ∧ ∃ a, f1 = .done a)
  | 5, h, f0, f1 => OddGet f0 ∧ h = oddHeap2 ∧ f1 = .idle
  | _, _, _, _ => False

theorem take_snoc {α : Type} {l w : List α} {x : α} {n : Nat} (h : w ++ [x] = l.take n) (hn : n ≤ l.length) :
    ∃ m, n = m + 1 ∧ w = l.take m ∧ l[m]? = some x := by
  have hl := congrArg List.length h
  simp only [List.length_append, List.length_cons, List.length_nil, List.length_take] at hl
  refine ⟨w.length, by omega, ?_, ?_⟩
  · have := congrArg (List.take w.length) h
    rw [List.take_left, List.take_take, Nat.min_eq_left (by omega)] at this
    exact this
  · have := congrArg (fun l => l[w.length]?) h
    simp only [List.getElem?_append_right (Nat.le_refl _), Nat.sub_self, List.getElem?_cons_zero] at this
    rw [List.getElem?_take_of_lt (by omega)] at this
    exact this.symm

theorem odd_get {h : Heap} (hh : h = players ∨ h = oddHeap1 ∨ h = oddHeap2) {ans : Option Val} (hd : Dataset.get h 1 b!"c>0>x" = .ok ans) :
    OddGet (.done ans) := by
  rcases hh with rfl | rfl | rfl
  · have : Dataset.get players 1 b!"c>0>x" = .ok (some (.int .int 1)) := by decide
    rw [this] at hd; cases hd; exact .inr (.inl rfl)
  · have : Dataset.get oddHeap1 1 b!"c>0>x" = .ok (some (.int .int 3)) := by decide
    rw [this] at hd; cases hd; exact .inr (.inr rfl)
  · have : Dataset.get oddHeap2 1 b!"c>0>x" = .ok (some (.int .int 3)) := by decide
    rw [this] at hd; cases hd; exact .inr (.inr rfl)

theorem Odd.heap {n : Nat} {h : Heap} {f0 f1 : Phase} (ho : Odd n h f0 f1) : h = players ∨ h = oddHeap1 ∨ h = oddHeap2 := by
  match n with
  | 0 | 1 => exact .inl ho.1
  | 2 => rcases ho.2 with h | h <;> simp [h.1]
  | 3 | 5 => simp [ho.2.1]
  | 4 => rcases ho.2 with h | h <;> simp [h.1]
  | _ + 6 => exact False.elim ho

theorem Odd.begun {n : Nat} {h : Heap} {f0 f1 : Phase} (ho : Odd n h f0 f1) (hf : f0 ≠ .idle) : OddGet f0 := by
  match n with
  | 0 => exact absurd ho.2.1 hf
  | 1 => exact ho.2.1
  | 2 | 3 | 4 | 5 => exact ho.1
  | _ + 6 => exact False.elim ho

theorem Odd.get {n : Nat} {h : Heap} {f0 f1 : Phase} (ho : Odd n h f0 f1) (hf : f0 ≠ .idle) {p : Phase} (hp : OddGet p) : Odd n h p f1 := by
  match n with
  | 0 => exact absurd ho.2.1 hf
  | 1 => exact ⟨ho.1, hp, ho.2.2⟩
  | 2 | 3 | 4 | 5 => exact ⟨hp, ho.2⟩
  | _ + 6 => exact False.elim ho

theorem odd_atomic {w : List Obs} {h : Heap} {f : Nat → Phase} (ha : Atomic (fun a key => a = 1 ∧ key = b!"c>0>x") players w h f) :
    ∀ n, n ≤ 6 → w = oddHistory.take n → Odd n h (f 0) (f 1) ∧ ∀ i, 2 ≤ i → f i = .idle := by
  induction ha with
  | start =>
    intro n hn e
    match n, hn with
    | 0, _ => exact ⟨⟨rfl, rfl, rfl⟩, fun _ _ => rfl⟩
    | n + 1, _ => simp [oddHistory] at e
  | @begins w h f i call _ hi ih =>
    intro n hn e
    obtain ⟨m, rfl, e1, e2⟩ := take_snoc e hn
    obtain ⟨ho, hid⟩ := ih m (by omega) e1
    have step : Odd (m + 1) h (if 0 = i then .waiting call else f 0) (if 1 = i then .waiting call else f 1) ∧ i < 2 := by
      match m, hn with
      | 0, _ => cases e2; exact ⟨⟨ho.1, .inl rfl, ho.2.2⟩, by omega⟩
      | 1, _ => cases e2; exact ⟨⟨ho.2.1, .inl ⟨ho.1, rfl⟩⟩, by omega⟩
      | 2, _ => cases e2
      | 3, _ => cases e2; exact ⟨⟨ho.1, .inl ⟨ho.2.1, rfl⟩⟩, by omega⟩
      | 4, _ => cases e2
      | 5, _ => cases e2
    have hi2 := step.2
    refine ⟨step.1, fun j hj => ?_⟩
    dsimp only
    rw [if_neg (by omega)]
    exact hid j hj
  | @takes w h h' f i call ans _ hi hd ih =>
    intro n hn e
    obtain ⟨ho, hid⟩ := ih n hn e
    have hi2 : i < 2 := by
      rcases Nat.lt_or_ge i 2 with h | h
      · exact h
      · rw [hid i h] at hi; cases hi
    refine ⟨?_, fun j hj => by dsimp only; rw [if_neg (by omega)]; exact hid j hj⟩
    match i, hi2 with
    | 0, _ =>
      have hg := ho.begun (by rw [hi]; nofun)
      rw [hi] at hg
      rcases hg with hg | hg | hg
      · cases hg
        obtain ⟨rfl, hd⟩ := hd
        exact ho.get (by rw [hi]; nofun) (odd_get ho.heap (hd _ ⟨rfl, rfl⟩ rfl))
      · cases hg
      · cases hg
    | 1, _ =>
      show Odd n h' (f 0) (.done ans)
      rw [hi] at ho
      match n, hn with
      | 0, _ => cases ho.2.2
      | 1, _ => cases ho.2.2
      | 2, _ =>
        rcases ho.2 with ⟨rfl, hw⟩ | ⟨_, a, hw⟩
        · cases hw
          obtain ⟨d, hd, _⟩ := hd
          have : Dataset.shift players 2 = .ok (oddHeap1, some 4) := by decide
          rw [this] at hd
          cases hd
          exact ⟨ho.1, .inr ⟨rfl, _, rfl⟩⟩
        · cases hw
      | 3, _ => cases ho.2.2
      | 4, _ =>
        rcases ho.2 with ⟨rfl, hw⟩ | ⟨_, a, hw⟩
        · cases hw
          have : Dataset.set oddHeap1 4 b!"x" (.int .int 2) = .ok oddHeap2 := by decide
          simp only [oddSet, Does] at hd
          rw [this] at hd
          cases hd
          exact ⟨ho.1, .inr ⟨rfl, _, rfl⟩⟩
        · cases hw
      | 5, _ => cases ho.2.2
      | 6, _ => exact False.elim ho
  | @ends w h f i ans _ hi ih =>
    intro n hn e
    obtain ⟨m, rfl, e1, e2⟩ := take_snoc e hn
    obtain ⟨ho, hid⟩ := ih m (by omega) e1
    have step : Odd (m + 1) h (if 0 = i then .idle else f 0) (if 1 = i then .idle else f 1) ∧ i < 2 := by
      match m, hn with
      | 0, _ => cases e2
      | 1, _ => cases e2
      | 2, _ =>
        cases e2
        rcases ho.2 with ⟨_, hw⟩ | ⟨hh, _⟩
        · rw [hi] at hw; cases hw
        · exact ⟨⟨ho.1, hh, rfl⟩, by omega⟩
      | 3, _ => cases e2
      | 4, _ =>
        cases e2
        rcases ho.2 with ⟨_, hw⟩ | ⟨hh, _⟩
        · rw [hi] at hw; cases hw
        · exact ⟨⟨ho.1, hh, rfl⟩, by omega⟩
      | 5, _ =>
        cases e2
        have hg := ho.1
        rw [hi] at hg
        rcases hg with hg | hg | hg <;> cases hg
    have hi2 := step.2
    refine ⟨step.1, fun j hj => ?_⟩
    dsimp only
    rw [if_neg (by omega)]
    exact hid j hj
  | @makes w h f o _ ih =>
    intro n hn e
    obtain ⟨m, rfl, e1, e2⟩ := take_snoc e hn
    match m, hn with
    | 0, _ | 1, _ | 2, _ | 3, _ | 4, _ | 5, _ => cases e2

theorem odd_not_atomic (h : Heap) (f : Nat → Phase) : ¬ Atomic (fun a key => a = 1 ∧ key = b!"c>0>x") players oddHistory h f :=
  fun ha => (odd_atomic ha 6 (by omega) rfl).1

end Xcore.Nested
