import Verif.Spec.NestedAtomic
import Verif.Proof.NestedCover
import Verif.Proof.NestedAlone

/-! # Calls that take effect at one moment -/

namespace Xcore.Nested

open Dataset Lock

variable {T : Pairs}

theorem private_target {c : Conf} {w d : Nat} (hp : Private w d c) (hlt : d < w) : target c.heap w = some d := by
  obtain ⟨⟨m, hm⟩, hw, _⟩ := hp
  cases w with
  | zero => omega
  | succ w => simp only [target, targetN, hw, hm]

/-- The stack consists of releases of read locks. -/
def Rels (R : List Instr) : Prop := ∀ x ∈ R, ∃ w, x = .release .read true w

/-- The path leads from `a` to `b` through datasets whose wrappers are released later; what is left of it is `s`. -/
inductive Way (T : Pairs) (h : Heap) (R : List Instr) (a : Nat) (segs : List Str) : Nat → List Str → Prop where
  | refl {d : Nat} : T a d → Way T h R a segs a segs
  | step {w d b d' : Nat} {m : AMap Val} {p p2 : Str} {rest : List Str} : Way T h R a segs w (p :: p2 :: rest) → T w d → T b d' →
      .release .read true w ∈ R → h[d]? = some (.ds m) → m.get p = some (.ptr b) → Way T h R a segs b (p2 :: rest)

theorem Way.mono {h h' : Heap} {R R' : List Instr} {a b : Nat} {segs s : List Str} (hw : Way T h R a segs b s) (hR : ∀ x ∈ R, x ∈ R')
    (hh : ∀ w d, T w d → .release .read true w ∈ R → h'[d]? = h[d]?) : Way T h' R' a segs b s := by
  induction hw with
  | refl ht => exact .refl ht
  | step _ h1 h2 h3 h4 h5 ih => exact .step ih h1 h2 (hR _ h3) (by rw [hh _ _ h1 h3]; exact h4) h5

theorem Way.pair {h : Heap} {R : List Instr} {a b : Nat} {segs s : List Str} (hw : Way T h R a segs b s) : ∃ d, T b d := by
  cases hw with
  | refl ht => exact ⟨_, ht⟩
  | step _ _ h2 => exact ⟨_, h2⟩

theorem Along.pair {h : Heap} {a : Nat} {segs : List Str} (ha : Along T h a segs) : ∃ d, T a d := by
  cases ha <;> exact ⟨_, by assumption⟩

theorem pair_unique {c : Conf} (hp : AllPrivate T c) {w d d' : Nat} (h1 : T w d) (h2 : T w d') : d = d' := by
  have a1 := (hp _ _ h1).1.2.1
  have a2 := (hp _ _ h2).1.2.1
  rw [a1] at a2
  simpa using a2

theorem Way.get {c : Conf} (hp : AllPrivate T c) {R : List Instr} {a b : Nat} {segs s : List Str} (hw : Way T c.heap R a segs b s) :
    getSegs c.heap a segs = getSegs c.heap b s := by
  induction hw with
  | refl => rfl
  | @step w d b d' m p p2 rest _ h1 h2 h3 h4 h5 ih =>
    rw [ih]
    have hb := (hp _ _ h2).1.2.1
    have he : entries c.heap d = m := by simp [entries, h4]
    rw [getSegs, private_target (hp _ _ h1).1 (hp _ _ h1).2]
    simp only [he, h5, asDataset, hb]

theorem Way.along {c : Conf} (hp : AllPrivate T c) {R : List Instr} {a b : Nat} {segs s : List Str} (hw : Way T c.heap R a segs b s)
    (ha : Along T c.heap a segs) : Along T c.heap b s := by
  induction hw with
  | refl => exact ha
  | @step w d b d' m p p2 rest _ h1 h2 h3 h4 h5 ih =>
    have hb := (hp _ _ h2).1.2.1
    cases ih with
    | into t1 t2 t3 t4 =>
      obtain rfl := pair_unique hp h1 t1
      rw [h4] at t2; cases t2
      rw [h5] at t3; cases t3
      exact t4
    | element t1 t2 t3 t4 =>
      obtain rfl := pair_unique hp h1 t1
      rw [h4] at t2; cases t2
      rw [h5] at t3; cases t3
      rw [hb] at t4; cases t4
    | stop t1 t2 t3 =>
      obtain rfl := pair_unique hp h1 t1
      rw [h4] at t2; cases t2
      exact absurd (Or.inr ⟨_, hb⟩) (t3 _ h5).1

/-- Where a `Get` is that has not found its answer. -/
inductive Stage (T : Pairs) (h : Heap) (a : Nat) (segs : List Str) : List Instr → Prop where
  | call {b : Nat} {s : List Str} {R : List Instr} : Rels R → Way T h R a segs b s → Stage T h a segs (.call (.get s) b :: R)
  | enter {b : Nat} {s : List Str} {R : List Instr} : Rels R → Way T h R a segs b s → Stage T h a segs (.enter .read true b (.body (.get s) b) :: R)
  | body {b : Nat} {s : List Str} {R : List Instr} : Rels R → Way T h R a segs b s →
      Stage T h a segs (.body (.get s) b :: .release .read true b :: R)
  | data {b d : Nat} {s : List Str} {R : List Instr} : Rels R → Way T h R a segs b s → T b d →
      Stage T h a segs (.call (.get s) d :: .release .read true b :: R)
  | enterCol {b d col : Nat} {m : AMap Val} {p p2 : Str} {n : Int} {l : List (Option Nat)} {R : List Instr} : Rels R → Way T h R a segs b [p, p2] →
      T b d → h[d]? = some (.ds m) → m.get p = some (.ptr col) → h[col]? = some (.colTS l) → atoi p2 = some n →
      Stage T h a segs (.enter .read true col (.elem true col n []) :: .release .read true b :: R)
  | elem {b d col : Nat} {m : AMap Val} {p p2 : Str} {n : Int} {l : List (Option Nat)} {R : List Instr} : Rels R → Way T h R a segs b [p, p2] →
      T b d → h[d]? = some (.ds m) → m.get p = some (.ptr col) → h[col]? = some (.colTS l) → atoi p2 = some n →
      Stage T h a segs (.elem true col n [] :: .release .read true col :: .release .read true b :: R)

theorem Stage.mono {h h' : Heap} {a : Nat} {segs : List Str} {st : List Instr} (hs : Stage T h a segs st)
    (hh : ∀ w d, T w d → .release .read true w ∈ st → h'[d]? = h[d]?) (hc : ∀ (b : Nat) l, h[b]? = some (.colTS l) → ∃ l', h'[b]? = some (.colTS l')) :
    Stage T h' a segs st := by
  cases hs with
  | call h1 h2 => exact .call h1 (h2.mono (fun _ h => h) fun w d t hr => hh w d t (by simp [hr]))
  | enter h1 h2 => exact .enter h1 (h2.mono (fun _ h => h) fun w d t hr => hh w d t (by simp [hr]))
  | body h1 h2 => exact .body h1 (h2.mono (fun _ h => h) fun w d t hr => hh w d t (by simp [hr]))
  | data h1 h2 h3 => exact .data h1 (h2.mono (fun _ h => h) fun w d t hr => hh w d t (by simp [hr])) h3
  | enterCol h1 h2 h3 h4 h5 h6 h7 =>
    obtain ⟨l', hl'⟩ := hc _ _ h6
    exact .enterCol h1 (h2.mono (fun _ h => h) fun w d t hr => hh w d t (by simp [hr])) h3 (by rw [hh _ _ h3 (by simp)]; exact h4) h5 hl' h7
  | elem h1 h2 h3 h4 h5 h6 h7 =>
    obtain ⟨l', hl'⟩ := hc _ _ h6
    exact .elem h1 (h2.mono (fun _ h => h) fun w d t hr => hh w d t (by simp [hr])) h3 (by rw [hh _ _ h3 (by simp)]; exact h4) h5 hl' h7

/-- What an instruction does to memory. -/
theorem exec_heap {h : Heap} {ans : Option Val} {x : Instr} {s s' : List Instr} {h' : Heap} {ans' : Option Val}
    (e : exec h ans x s = .next h' ans' s') :
    h' = h ∨ (∃ op t m m', x = .call op t ∧ op.writes = true ∧ h[t]? = some (.ds m) ∧ h' = h.set t (.ds m')) ∨
    (∃ op c l, x = .change op c ∧ h' = setElems h c l) := by
  cases x with
  | call op a =>
    simp only [exec, callStep] at e
    split at e
    · cases e; exact .inl rfl
    · rename_i m hm
      cases op with
      | get segs => exact .inl (getStep_grows e).1
      | set k v => cases e; exact .inr (.inl ⟨_, _, _, _, rfl, rfl, hm, rfl⟩)
      | del k => cases e; exact .inr (.inl ⟨_, _, _, _, rfl, rfl, hm, rfl⟩)
      | _ => cases e; exact .inl rfl
    · split at e <;> (cases e; exact .inl rfl)
    · split at e <;> (cases e; exact .inl rfl)
    · split at e <;> (cases e; exact .inl rfl)
    · cases e; exact .inl rfl
  | body op a =>
    simp only [exec] at e
    split at e
    · cases e; exact .inl rfl
    · split at e <;> cases e
      exact .inl rfl
  | elem locked c i rest =>
    simp only [exec] at e
    split at e
    · split at e <;> (cases e; exact .inl rfl)
    · cases e; exact .inl rfl
  | elems c => cases e; exact .inl rfl
  | printAnswer a =>
    simp only [exec] at e
    split at e <;> (cases e; exact .inl rfl)
  | change op c =>
    cases op with
    | unshift d => cases e; exact .inr (.inr ⟨_, _, _, rfl, rfl⟩)
    | push d => cases e; exact .inr (.inr ⟨_, _, _, rfl, rfl⟩)
    | shift =>
      simp only [exec, changeStep, shift] at e
      cases hl : Dataset.elems h c with
      | nil => rw [hl] at e; cases e
      | cons d l => rw [hl] at e; cases e; exact .inr (.inr ⟨_, _, _, rfl, rfl⟩)
    | pop =>
      simp only [exec, changeStep, pop] at e
      cases hl : (Dataset.elems h c).getLast? with
      | none => rw [hl] at e; cases e
      | some d => rw [hl] at e; cases e; exact .inr (.inr ⟨_, _, _, rfl, rfl⟩)
    | count => cases e; exact .inl rfl
    | get i => cases e; exact .inl rfl
  | size c key => cases e; exact .inl rfl
  | scan c n key => cases n <;> (cases e; exact .inl rfl)
  | pick c n key =>
    simp only [exec] at e
    split at e <;> cases e <;> exact .inl rfl
  | check c n key =>
    simp only [exec] at e
    split at e <;> (cases e; exact .inl rfl)
  | skip => cases e; exact .inl rfl
  | fail => cases e
  | enter => cases e
  | await => cases e
  | release => cases e

theorem setElems_other {h : Heap} {c b : Nat} (l : List (Option Nat)) (hb : ∀ m, h[b]? = some m → c ≠ b) : (setElems h c l)[b]? = h[b]? := by
  unfold setElems
  cases hh : h[b]? with
  | none =>
    have : h.length ≤ b := by simpa using hh
    split <;> (simp; omega)
  | some o =>
    have := hb o hh
    split <;> (rw [List.getElem?_set_ne this]; exact hh)

theorem Run.imp {P Q : Conf → Prop} (hPQ : ∀ c, P c → Q c) {c0 c : Conf} (h : Run P c0 c) : Run Q c0 c := by
  induction h with
  | refl h => exact .refl (hPQ _ h)
  | step _ h1 h2 h3 ih => exact .step ih h1 h2 (hPQ _ h3)

/-- What a step of another goroutine leaves as it is. -/
theorem move_keeps {h0 : Heap} {c c' : Conf} {i j : Nat} (hr : Run (AllPrivate T) (start h0) c) (hm : Move c j c') (hp' : AllPrivate T c') (hij : i ≠ j) :
    (∀ w d, T w d → .release .read true w ∈ (c.gor i).stack → c'.heap[d]? = c.heap[d]?) ∧
    ∀ (b : Nat) l, c.heap[b]? = some (.colTS l) → ∃ l', c'.heap[b]? = some (.colTS l') := by
  have hheld := Held.run hr
  have same : c'.heap = c.heap → _ := fun e => (⟨fun w d _ _ => by rw [e], fun b l hb => ⟨l, by rw [e]; exact hb⟩⟩ :
    (∀ w d, T w d → .release .read true w ∈ (c.gor i).stack → c'.heap[d]? = c.heap[d]?) ∧
    ∀ (b : Nat) l, c.heap[b]? = some (.colTS l) → ∃ l', c'.heap[b]? = some (.colTS l'))
  cases hm with
  | @run x s s' h' ans' hst hl he =>
    rcases exec_heap he with rfl | ⟨op, t, m, m', rfl, hw, hm, rfl⟩ | ⟨op, col, l, rfl, rfl⟩
    · exact same rfl
    · constructor
      · intro w d ht hrel
        by_cases e : t = d
        · subst e
          exfalso
          have hrun : Run (Private w t) (start h0) c := hr.imp fun c h => (h _ _ ht).1
          have h1 := accesses_holds hrun (i := j) ⟨s, hst⟩
          have h2 := holds_of_later hheld (i := i) (m := .read) ⟨true, hrel⟩
          have := Holds.excl hheld hij (w := op.writes) (w' := false) h1 (Or.inl h2)
          rw [hw] at this
          cases this.1
        · rw [List.getElem?_set_ne e]
      · intro b l hb
        by_cases e : t = b
        · subst e; rw [hm] at hb; cases hb
        · exact ⟨l, by simp only; rw [List.getElem?_set_ne e]; exact hb⟩
    · constructor
      · intro w d ht _
        apply setElems_other
        rintro o ho rfl
        obtain ⟨m, hm⟩ := (hp' _ _ ht).1.1
        simp only [setElems] at hm
        split at hm
        · rw [List.getElem?_set_self' ] at hm; cases h : c.heap[col]? <;> rw [h] at hm <;> cases hm
        · rw [List.getElem?_set_self' ] at hm; cases h : c.heap[col]? <;> rw [h] at hm <;> cases hm
      · intro b l' hb
        by_cases e : col = b
        · subst e
          refine ⟨l, ?_⟩
          simp only [setElems, hb]
          rw [List.getElem?_set_self (List.getElem?_eq_some_iff.1 hb).1]
        · exact ⟨l', by simp only; rw [setElems_other l (fun _ _ => e)]; exact hb⟩
  | _ => exact same rfl

/-- A step of the goroutine that makes the `Get`. -/
theorem Stage.move {c c' : Conf} {i a : Nat} {segs : List Str} (hs : Stage T c.heap a segs (c.gor i).stack) (hp : AllPrivate T c)
    (ha : Along T c.heap a segs) (hm : Move c i c') :
    c'.heap = c.heap ∧ (Stage T c'.heap a segs (c'.gor i).stack ∨
      (Rels (c'.gor i).stack ∧ getSegs c.heap a segs = .ok (c'.gor i).ans)) := by
  have hm := hm.tryMove
  generalize hst : (c.gor i).stack = st at hs
  have hrel : ∀ {R : List Instr} {b : Nat}, Rels R → Rels (.release .read true b :: R) := by
    intro R b hR x hx
    rcases List.mem_cons.1 hx with rfl | hx
    · exact ⟨_, rfl⟩
    · exact hR x hx
  cases hs with
  | @call b s R h1 h2 =>
    obtain ⟨d, hd⟩ := h2.pair
    have hb := (hp _ _ hd).1.2.1
    rw [tryMove_run hst rfl] at hm
    simp only [exec, callStep, hb] at hm
    cases hm
    refine ⟨rfl, .inl ?_⟩
    simp only [upd_self]
    exact .enter h1 h2
  | @enter b s R h1 h2 =>
    simp only [tryMove, hst] at hm
    split at hm <;> cases hm
    refine ⟨rfl, .inl ?_⟩
    simp only [Conf.go, upd_self]
    exact .body h1 h2
  | @body b s R h1 h2 =>
    obtain ⟨d, hd⟩ := h2.pair
    have hb := (hp _ _ hd).1.2.1
    rw [tryMove_run hst rfl] at hm
    simp only [exec, hb] at hm
    cases hm
    refine ⟨rfl, .inl ?_⟩
    simp only [upd_self]
    exact .data h1 h2 hd
  | @data b d s R h1 h2 h3 =>
    obtain ⟨m, hmm⟩ := (hp _ _ h3).1.1
    have htar := private_target (hp _ _ h3).1 (hp _ _ h3).2
    have he : entries c.heap d = m := by simp [entries, hmm]
    have hal := h2.along hp ha
    rw [h2.get hp]
    rw [tryMove_run hst rfl] at hm
    simp only [exec, callStep, hmm, datasetStep] at hm
    cases hal with
    | @last _ _ k t1 =>
      simp only [getStep] at hm
      cases hm
      refine ⟨rfl, .inr ?_⟩
      simp only [upd_self, getSegs, htar, he]
      exact ⟨hrel h1, trivial⟩
    | @into _ d' b' m' p p2 rest t1 t2 t3 t4 =>
      obtain rfl := pair_unique hp h3 t1
      rw [hmm] at t2; cases t2
      obtain ⟨d', hd'⟩ : ∃ d', T b' d' := by cases t4 <;> exact ⟨_, by assumption⟩
      have hb' := (hp _ _ hd').1.2.1
      simp only [getStep, t3, asDataset, hb'] at hm
      cases hm
      refine ⟨rfl, .inl ?_⟩
      simp only [upd_self]
      exact .call (hrel h1) (.step (h2.mono (fun _ h => by simp [h]) fun _ _ _ _ => rfl) h3 hd' (by simp) hmm t3)
    | @element _ d' b' m' p p2 l t1 t2 t3 t4 =>
      obtain rfl := pair_unique hp h3 t1
      rw [hmm] at t2; cases t2
      cases hat : atoi p2 with
      | none =>
        simp only [getStep, t3, asDataset, asCollection, t4, hat] at hm
        cases hm
        refine ⟨rfl, .inr ?_⟩
        simp only [upd_self, getSegs, htar, he, t3, asDataset, asCollection, t4, hat]
        exact ⟨hrel h1, trivial⟩
      | some n =>
        simp only [getStep, t3, asDataset, asCollection, t4, hat] at hm
        cases hm
        refine ⟨rfl, .inl ?_⟩
        simp only [upd_self]
        exact .enterCol h1 h2 h3 hmm t3 t4 hat
    | @stop _ d' m' p p2 rest t1 t2 t3 =>
      obtain rfl := pair_unique hp h3 t1
      rw [hmm] at t2; cases t2
      cases hv : m.get p with
      | none =>
        simp only [getStep, hv] at hm
        cases hm
        refine ⟨rfl, .inr ?_⟩
        simp only [upd_self, getSegs, htar, he, hv]
        exact ⟨hrel h1, trivial⟩
      | some v =>
        have hd : asDataset c.heap v = none := by
          cases v with
          | ptr b =>
            have := (t3 b hv).1
            simp only [asDataset]
            split
            · exact absurd (.inl ⟨_, by assumption⟩) this
            · exact absurd (.inr ⟨_, by assumption⟩) this
            · rfl
          | _ => rfl
        have hc : asCollection c.heap v = none := by
          cases v with
          | ptr b =>
            have := (t3 b hv).2
            simp only [asCollection]
            split
            · exact absurd (.inl (by assumption)) (this _)
            · exact absurd (.inr (by assumption)) (this _)
            · rfl
          | _ => rfl
        simp only [getStep, hv, hd, hc] at hm
        cases hm
        refine ⟨rfl, .inr ?_⟩
        simp only [upd_self, getSegs, htar, he, hv, hd, hc]
        exact ⟨hrel h1, trivial⟩
  | @enterCol b d col m p p2 n l R h1 h2 h3 h4 h5 h6 h7 =>
    simp only [tryMove, hst] at hm
    split at hm <;> cases hm
    refine ⟨rfl, .inl ?_⟩
    simp only [Conf.go, upd_self]
    exact .elem h1 h2 h3 h4 h5 h6 h7
  | @elem b d col m p p2 n l R h1 h2 h3 h4 h5 h6 h7 =>
    have htar := private_target (hp _ _ h3).1 (hp _ _ h3).2
    have he : entries c.heap d = m := by simp [entries, h4]
    rw [h2.get hp]
    rw [tryMove_run hst rfl] at hm
    simp only [getSegs, htar, he, h5, asDataset, asCollection, h6, h7]
    cases hg : colGet (elems c.heap col) n with
    | none =>
      simp only [exec, hg] at hm
      cases hm
      refine ⟨rfl, .inr ?_⟩
      simp only [upd_self]
      exact ⟨hrel (hrel h1), trivial⟩
    | some o =>
      cases o with
      | none =>
        simp only [exec, hg] at hm
        cases hm
        refine ⟨rfl, .inr ?_⟩
        simp only [upd_self]
        exact ⟨hrel (hrel h1), trivial⟩
      | some e =>
        simp only [exec, hg] at hm
        cases hm
        refine ⟨rfl, .inr ?_⟩
        simp only [upd_self]
        exact ⟨hrel (hrel h1), trivial⟩

theorem Rels.move {c c' : Conf} {i : Nat} (hs : Rels (c.gor i).stack) (hm : Move c i c') :
    c'.heap = c.heap ∧ Rels (c'.gor i).stack ∧ (c'.gor i).ans = (c.gor i).ans := by
  have hm := hm.tryMove
  cases hst : (c.gor i).stack with
  | nil => simp [tryMove, hst] at hm
  | cons x s =>
    rw [hst] at hs
    obtain ⟨w, rfl⟩ := hs x (by simp)
    simp only [tryMove, hst] at hm
    cases hm
    simp only [Conf.go, upd_self]
    exact ⟨trivial, fun x hx => hs x (by simp [hx]), trivial⟩

theorem Step.other {c c' : Conf} {i : Nat} {who : Option Nat} (hs : Step c who c') (hb : Busy c i) (hw : who ≠ some i) : c'.gor i = c.gor i := by
  cases hs with
  | move hm => exact hm.gor_ne fun e => hw (by rw [e])
  | @begin j call hidle hl =>
    have e : i ≠ j := by rintro rfl; exact hb hidle
    simp [Conf.go, upd_ne _ _ e]
  | alloc => rfl

theorem Step.keeps {h0 : Heap} {c c' : Conf} {i : Nat} {who : Option Nat} (hr : Run (AllPrivate T) (start h0) c) (hs : Step c who c') (hp' : AllPrivate T c')
    (hw : who ≠ some i) :
    (∀ w d, T w d → .release .read true w ∈ (c.gor i).stack → c'.heap[d]? = c.heap[d]?) ∧
    ∀ (b : Nat) l, c.heap[b]? = some (.colTS l) → ∃ l', c'.heap[b]? = some (.colTS l') := by
  have hp : AllPrivate T c := by cases hr <;> assumption
  cases hs with
  | move hm => exact move_keeps hr hm hp' fun e => hw (by rw [e])
  | begin => exact ⟨fun _ _ _ _ => rfl, fun _ l h => ⟨l, h⟩⟩
  | alloc =>
    refine ⟨fun w d ht _ => ?_, fun b l hb => ⟨l, ?_⟩⟩
    · obtain ⟨m, hm⟩ := (hp _ _ ht).1.1
      rw [List.getElem?_append_left (List.getElem?_eq_some_iff.1 hm).1]
    · rw [List.getElem?_append_left (List.getElem?_eq_some_iff.1 hb).1]; exact hb

theorem rels_trace {i : Nat} {P : Conf → Prop} {c c2 : Conf} {l : List Event} (ht : Trace P c l c2) (hm : Making i l) (hs : Rels (c.gor i).stack) :
    (∀ e ∈ l, e.who = some i → e.after.heap = e.before.heap) ∧ (c2.gor i).ans = (c.gor i).ans := by
  induction ht with
  | nil => exact ⟨nofun, rfl⟩
  | @cons c c' c'' who l hp hst _ _ ih =>
    have hm' : Making i l := fun e he => hm e (by simp [he])
    by_cases hw : who = some i
    · subst hw
      cases hst with
      | move hmv =>
        obtain ⟨h1, h2, h3⟩ := hs.move hmv
        obtain ⟨h4, h5⟩ := ih hm' h2
        refine ⟨?_, h5.trans h3⟩
        intro e he
        rcases List.mem_cons.1 he with rfl | he
        · exact fun _ => h1
        · exact h4 e he
    · have hg := hst.other (hm ⟨c, who, c'⟩ (by simp)) hw
      obtain ⟨h4, h5⟩ := ih hm' (by rw [hg]; exact hs)
      refine ⟨?_, by rw [h5, hg]⟩
      intro e he
      rcases List.mem_cons.1 he with rfl | he
      · exact fun e => absurd e hw
      · exact h4 e he

theorem get_trace {i a : Nat} {segs : List Str} {h0 : Heap} {c c2 : Conf} {l : List Event}
    (hr : Run (AllPrivate T) (start h0) c) (ht : Trace (fun c => AllPrivate T c ∧ Along T c.heap a segs) c l c2) (hm : Making i l)
    (hend : ¬ Busy c2 i) (hs : Stage T c.heap a segs (c.gor i).stack) :
    (∀ e ∈ l, e.who = some i → e.after.heap = e.before.heap) ∧
    ∃ e ∈ l, e.who = some i ∧ getSegs e.before.heap a segs = .ok (c2.gor i).ans := by
  induction ht with
  | nil =>
    refine absurd ?_ hend
    intro h
    rw [h] at hs
    cases hs
  | @cons c c' c'' who l hp hst hcalm htr ih =>
    have hm' : Making i l := fun e he => hm e (by simp [he])
    have hp' : AllPrivate T c' ∧ Along T c'.heap a segs := by cases htr <;> assumption
    have hr' : Run (AllPrivate T) (start h0) c' := .step hr hst hcalm hp'.1
    by_cases hw : who = some i
    · subst hw
      cases hst with
      | move hmv =>
        obtain ⟨h1, h2 | ⟨h2, h3⟩⟩ := hs.move hp.1 hp.2 hmv
        · obtain ⟨h4, e, he, h5⟩ := ih hr' hm' hend h2
          refine ⟨?_, e, by simp [he], h5⟩
          intro e he
          rcases List.mem_cons.1 he with rfl | he
          · exact fun _ => h1
          · exact h4 e he
        · obtain ⟨h4, h5⟩ := rels_trace htr hm' h2
          refine ⟨?_, ⟨c, some i, c'⟩, by simp, rfl, by rw [h5]; exact h3⟩
          intro e he
          rcases List.mem_cons.1 he with rfl | he
          · exact fun _ => h1
          · exact h4 e he
    · have hg := hst.other (hm ⟨c, who, c'⟩ (by simp)) hw
      have hk := hst.keeps hr hp'.1 hw
      obtain ⟨h4, e, he, h5⟩ := ih hr' hm' hend (by rw [hg]; exact hs.mono hk.1 hk.2)
      refine ⟨?_, e, by simp [he], h5⟩
      intro e he
      rcases List.mem_cons.1 he with rfl | he
      · exact fun e => absurd e hw
      · exact h4 e he

/-- A call that goes through the stages `B`, has its effect and goes through the stages `A`. -/
theorem point_trace {P : Conf → Prop} {i : Nat} {B A : List Instr → Prop} {E : Conf → Conf → Prop}
    (hB : ∀ c c', P c → P c' → Calm c i → B (c.gor i).stack → Move c i c' → (c'.heap = c.heap ∧ B (c'.gor i).stack) ∨ (E c c' ∧ A (c'.gor i).stack))
    (hA : ∀ c c', A (c.gor i).stack → Move c i c' → c'.heap = c.heap ∧ A (c'.gor i).stack ∧ (c'.gor i).ans = (c.gor i).ans) (hB0 : ¬ B [])
    {c c2 : Conf} {l : List Event} (ht : Trace P c l c2) (hm : Making i l) (hend : ¬ Busy c2 i) (hs : B (c.gor i).stack) :
    ∃ l1 e l2, l = l1 ++ e :: l2 ∧ e.who = some i ∧ E e.before e.after ∧ (c2.gor i).ans = (e.after.gor i).ans ∧
      ∀ e' ∈ l1 ++ l2, e'.who = some i → e'.after.heap = e'.before.heap := by
  have after : ∀ {c c2 : Conf} {l : List Event}, Trace P c l c2 → Making i l → A (c.gor i).stack →
      (∀ e ∈ l, e.who = some i → e.after.heap = e.before.heap) ∧ (c2.gor i).ans = (c.gor i).ans := by
    intro c c2 l ht hm hs
    induction ht with
    | nil => exact ⟨nofun, rfl⟩
    | @cons c c' c'' who l hp hst _ _ ih =>
      have hm' : Making i l := fun e he => hm e (by simp [he])
      by_cases hw : who = some i
      · subst hw
        cases hst with
        | move hmv =>
          obtain ⟨h1, h2, h3⟩ := hA _ _ hs hmv
          obtain ⟨h4, h5⟩ := ih hm' h2
          refine ⟨?_, h5.trans h3⟩
          intro e he
          rcases List.mem_cons.1 he with rfl | he
          · exact fun _ => h1
          · exact h4 e he
      · have hg := hst.other (hm ⟨c, who, c'⟩ (by simp)) hw
        obtain ⟨h4, h5⟩ := ih hm' (by rw [hg]; exact hs)
        refine ⟨?_, by rw [h5, hg]⟩
        intro e he
        rcases List.mem_cons.1 he with rfl | he
        · exact fun e => absurd e hw
        · exact h4 e he
  induction ht with
  | nil =>
    refine absurd ?_ hend
    intro h
    rw [h] at hs
    exact hB0 hs
  | @cons c c' c'' who l hp hst hcalm htr ih =>
    have hm' : Making i l := fun e he => hm e (by simp [he])
    have hp' : P c' := by cases htr <;> assumption
    by_cases hw : who = some i
    · subst hw
      cases hst with
      | move hmv =>
        rcases hB _ _ hp hp' (hcalm i rfl) hs hmv with ⟨h1, h2⟩ | ⟨h1, h2⟩
        · obtain ⟨l1, e, l2, rfl, h3, h4, h5, h6⟩ := ih hm' hend h2
          refine ⟨⟨c, some i, c'⟩ :: l1, e, l2, rfl, h3, h4, h5, ?_⟩
          intro e he
          rcases List.mem_cons.1 he with rfl | he
          · exact fun _ => h1
          · exact h6 e he
        · obtain ⟨h3, h4⟩ := after htr hm' h2
          exact ⟨[], ⟨c, some i, c'⟩, l, rfl, rfl, h1, h4, h3⟩
    · have hg := hst.other (hm ⟨c, who, c'⟩ (by simp)) hw
      obtain ⟨l1, e, l2, rfl, h3, h4, h5, h6⟩ := ih hm' hend (by rw [hg]; exact hs)
      refine ⟨⟨c, who, c'⟩ :: l1, e, l2, rfl, h3, h4, h5, ?_⟩
      intro e he
      rcases List.mem_cons.1 he with rfl | he
      · exact fun e => absurd e hw
      · exact h6 e he

/-- `Set` and `Del` before the change. -/
inductive WStage (op : Op) (a d : Nat) : List Instr → Prop where
  | call : WStage op a d [.call op a]
  | enter : WStage op a d [.enter .write false a (.body op a)]
  | await : WStage op a d [.await false a (.body op a)]
  | body : WStage op a d [.body op a, .release .write false a]
  | data : WStage op a d [.call op d, .release .write false a]

theorem WStage.move {op : Op} (hop : op.mode = .write) (hdef : op.deferred = false) {a d : Nat} {c c' : Conf} {i : Nat} (hp : Private a d c)
    (hs : WStage op a d (c.gor i).stack) (hm : Move c i c') :
    (c'.heap = c.heap ∧ WStage op a d (c'.gor i).stack) ∨
    (∃ m, c.heap[d]? = some (.ds m) ∧ datasetStep c.heap (c.gor i).ans d m [.release .write false a] op = .next c'.heap (c'.gor i).ans [.release .write false a] ∧
      (c'.gor i).stack = [.release .write false a]) := by
  obtain ⟨⟨m, hmm⟩, ha, _⟩ := hp
  have hm := hm.tryMove
  generalize hst : (c.gor i).stack = st at hs
  cases hs with
  | call =>
    rw [tryMove_run hst rfl] at hm
    simp only [exec, callStep, ha] at hm
    cases hm
    refine .inl ⟨rfl, ?_⟩
    simp only [upd_self, hop, hdef]
    exact .enter
  | enter =>
    simp only [tryMove, hst] at hm
    split at hm <;> cases hm
    refine .inl ⟨rfl, ?_⟩
    simp only [Conf.go, upd_self]
    exact .await
  | await =>
    simp only [tryMove, hst] at hm
    split at hm <;> cases hm
    refine .inl ⟨rfl, ?_⟩
    simp only [Conf.go, upd_self]
    exact .body
  | body =>
    rw [tryMove_run hst rfl] at hm
    simp only [exec, ha] at hm
    cases hm
    refine .inl ⟨rfl, ?_⟩
    simp only [upd_self]
    exact .data
  | data =>
    rw [tryMove_run hst rfl] at hm
    simp only [exec, callStep, hmm] at hm
    refine .inr ⟨m, hmm, ?_⟩
    cases op <;> cases hop
    all_goals
      simp only [datasetStep] at hm ⊢
      cases hm
      simp only [upd_self]
      exact ⟨trivial, trivial⟩

theorem release_move {a : Nat} {m : Mode} {d : Bool} (c c' : Conf) {i : Nat} (hs : (c.gor i).stack = [.release m d a] ∨ (c.gor i).stack = []) (hm : Move c i c') :
    c'.heap = c.heap ∧ ((c'.gor i).stack = [.release m d a] ∨ (c'.gor i).stack = []) ∧ (c'.gor i).ans = (c.gor i).ans := by
  have hm := hm.tryMove
  rcases hs with hst | hst
  · cases m <;> (simp only [tryMove, hst] at hm; cases hm; simp only [Conf.go, upd_self]; exact ⟨trivial, .inr trivial, trivial⟩)
  · simp [tryMove, hst] at hm

/-- A method of a thread-safe collection before its effect. -/
inductive CStage (op : ColOp) (col : Nat) : List Instr → Prop where
  | enter : CStage op col [.enter (colMode op).1 (colMode op).2 col (.change op col)]
  | await : (colMode op).1 = .write → CStage op col [.await (colMode op).2 col (.change op col)]
  | change : CStage op col [.change op col, .release (colMode op).1 (colMode op).2 col]

theorem CStage.move {op : ColOp} {col : Nat} {c c' : Conf} {i : Nat} (hcalm : Calm c i) (hs : CStage op col (c.gor i).stack) (hm : Move c i c') :
    (c'.heap = c.heap ∧ CStage op col (c'.gor i).stack) ∨
    (exec c.heap (c.gor i).ans (.change op col) [.release (colMode op).1 (colMode op).2 col] =
        .next c'.heap (c'.gor i).ans [.release (colMode op).1 (colMode op).2 col] ∧
      (c'.gor i).stack = [.release (colMode op).1 (colMode op).2 col]) := by
  have hm := hm.tryMove
  generalize hst : (c.gor i).stack = st at hs
  cases hs with
  | enter =>
    cases hmode : (colMode op).1 with
    | read =>
      simp only [tryMove, hst, hmode] at hm
      split at hm <;> cases hm
      refine .inl ⟨rfl, ?_⟩
      simp only [Conf.go, upd_self]
      rw [← hmode]
      exact .change
    | write =>
      simp only [tryMove, hst, hmode] at hm
      split at hm <;> cases hm
      refine .inl ⟨rfl, ?_⟩
      simp only [Conf.go, upd_self]
      exact .await hmode
  | await hmode =>
    simp only [tryMove, hst] at hm
    split at hm <;> cases hm
    refine .inl ⟨rfl, ?_⟩
    simp only [Conf.go, upd_self]
    rw [← hmode]
    exact .change
  | change =>
    rw [tryMove_run hst rfl] at hm
    cases he : exec c.heap (c.gor i).ans (.change op col) [.release (colMode op).1 (colMode op).2 col] with
    | panic =>
      exfalso
      have := hcalm _ _ hst rfl he
      cases op with
      | shift => exact this .write col (by simp [colMode])
      | pop => exact this .write col (by simp [colMode])
      | _ => cases he
    | next h' ans' s' =>
      have hg : s' = [.release (colMode op).1 (colMode op).2 col] := by
        cases op <;> simp only [exec, changeStep] at he
        case shift => split at he <;> cases he; rfl
        case pop => split at he <;> cases he; rfl
        all_goals (cases he; rfl)
      subst hg
      rw [he] at hm
      cases hm
      exact .inr (by simp)

theorem Trace.first {P : Conf → Prop} {c c' : Conf} {l : List Event} (h : Trace P c l c') : P c := by cases h <;> assumption

/-- One more step. -/
theorem Trace.snoc {P : Conf → Prop} {c c' c'' : Conf} {who : Option Nat} {l : List Event} (h : Trace P c l c') (hs : Step c' who c'')
    (hc : ∀ i, who = some i → Calm c' i) (hp : P c'') : Trace P c (l ++ [⟨c', who, c''⟩]) c'' := by
  induction h with
  | nil h1 => exact .cons h1 hs hc (.nil hp)
  | cons h1 h2 h3 _ ih => exact .cons h1 h2 h3 (ih hs hc)

theorem play_trace {P : Conf → Prop} {p : Conf → Bool} {n : Nat} (hp : ∀ c, (∀ i, n ≤ i → (c.gor i).stack = []) → p c = true → P c) :
    ∀ {c c' : Conf} {xs : List Act}, (∀ i, n ≤ i → (c.gor i).stack = []) → play p n c xs = some c' →
      ∃ l, Trace P c l c' ∧ (∀ e ∈ l, p e.before = true) ∧ p c' = true ∧ ∀ i, n ≤ i → (c'.gor i).stack = [] := by
  intro c c' xs
  induction xs generalizing c with
  | nil =>
    intro hid h
    simp only [play] at h
    split at h
    · cases h; exact ⟨[], .nil (hp _ hid (by assumption)), nofun, by assumption, hid⟩
    · cases h
  | cons x xs ih =>
    intro hid h
    simp only [play] at h
    split at h
    · rename_i hc
      simp only [Bool.and_eq_true, decide_eq_true_eq, List.all_eq_true, List.mem_range] at hc
      obtain ⟨⟨h1, h2⟩, h3⟩ := hc
      cases ha : act c x with
      | none => rw [ha] at h; cases h
      | some c1 =>
        rw [ha] at h
        have hid1 : ∀ i, n ≤ i → (c1.gor i).stack = [] := by
          intro i hi
          rw [act_idle ha (by omega)]
          exact hid i hi
        obtain ⟨l, h4, h5, h6⟩ := ih (c := c1) hid1 h
        obtain ⟨who, hstep⟩ := act_step ha
        refine ⟨_, .cons (hp _ hid h1) hstep ?_ h4, ?_, h6⟩
        · intro i _
          by_cases hi : i < n
          · exact calm_of_calmB (h3 i hi)
          · intro y s hst
            rw [hid i (by omega)] at hst
            cases hst
        · intro e he
          rcases List.mem_cons.1 he with rfl | he
          · exact h1
          · exact h5 e he
    · cases h

/-- A call of goroutine 0 from its beginning to its end, with these actions before its last step. -/
theorem call_trace {P : Conf → Prop} {p : Conf → Bool} {n : Nat} (hp : ∀ c, (∀ i, n ≤ i → (c.gor i).stack = []) → p c = true → P c) (h0 : 0 < n)
    {c1 : Conf} (hid : ∀ i, n ≤ i → (c1.gor i).stack = []) {xs : List Act} {q : Conf → Bool}
    (e : (play (fun c => p c && !(c.gor 0).stack.isEmpty) n c1 xs).any
      (fun c => calmB c 0 && (tryMove c 0).any fun c' => p c' && (c'.gor 0).stack.isEmpty && q c') = true) :
    ∃ l c2, Trace P c1 l c2 ∧ Making 0 l ∧ ¬ Busy c2 0 ∧ q c2 = true := by
  cases hpl : play (fun c => p c && !(c.gor 0).stack.isEmpty) n c1 xs with
  | none => rw [hpl] at e; cases e
  | some c =>
    rw [hpl] at e
    simp only [Option.any_some, Bool.and_eq_true] at e
    obtain ⟨l, h1, h2, h3, h4⟩ := play_trace (P := P) (fun c hi hc => hp c hi (by simp only [Bool.and_eq_true] at hc; exact hc.1)) hid hpl
    cases ht : tryMove c 0 with
    | none => rw [ht] at e; cases e.2
    | some c' =>
      rw [ht] at e
      simp only [Option.any_some, Bool.and_eq_true, List.isEmpty_iff] at e
      have hmv := move_of_tryMove ht
      refine ⟨_, c', h1.snoc (.move hmv) ?_ (hp _ ?_ e.2.1.1), ?_, ?_, e.2.2⟩
      · intro i hi; cases hi; exact calm_of_calmB e.1
      · intro i hi
        rw [hmv.gor_ne (by omega)]
        exact h4 i hi
      · intro e' he'
        rcases List.mem_append.1 he' with he' | he'
        · have := h2 e' he'
          simp only [Bool.and_eq_true, Bool.not_eq_true', List.isEmpty_eq_false_iff] at this
          exact this.2
        · simp only [List.mem_singleton] at he'
          subst he'
          exact hmv.busy
      · intro hb; exact hb e.2.1.2

theorem allPrivate_players (c : Conf) (hid : ∀ i, 2 ≤ i → (c.gor i).stack = []) (h : (privateB 1 0 2 c && privateB 4 3 2 c && privateB 6 5 2 c) = true) :
    AllPrivate playerPairs c := by
  simp only [Bool.and_eq_true] at h
  intro w d hwd
  simp only [playerPairs, List.mem_cons, Prod.mk.injEq, List.not_mem_nil, or_false] at hwd
  rcases hwd with ⟨rfl, rfl⟩ | ⟨rfl, rfl⟩ | ⟨rfl, rfl⟩
  · exact ⟨private_of_privateB hid h.1.1, by omega⟩
  · exact ⟨private_of_privateB hid h.1.2, by omega⟩
  · exact ⟨private_of_privateB hid h.2, by omega⟩

end Xcore.Nested
