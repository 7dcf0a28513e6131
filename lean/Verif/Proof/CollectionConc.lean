import Verif.Spec.CollectionConc
import Verif.Proof.DatasetWF
import Verif.Proof.Dataset

/-! # Invariants of goroutines using one collection -/

namespace Xcore.CollectionConc

open Dataset

theorem Reach.trans {a b c : Conf} (h : Reach a b) (h' : Reach b c) : Reach a c := by
  induction h' with
  | refl => exact h
  | step _ hs ih => exact .step ih hs

theorem put_self (f : Nat → Gor) (i : Nat) (g : Gor) : put f i g i = g := by simp [put]
theorem put_ne (f : Nat → Gor) {i j : Nat} (g : Gor) (h : j ≠ i) : put f i g j = f j := by simp [put, h]

/-- A step of one goroutine does not touch the others, and takes its calls in order. -/
theorem step_other {c c' : Conf} {i : Nat} (hs : Step c i c') : ∀ j, j ≠ i → c'.gor j = c.gor j := by
  intro j hj
  cases hs <;> simp only [answered, moved, put_ne _ _ hj]

theorem step_todo {c c' : Conf} {i : Nat} (hs : Step c i c') : ∃ done, (c.gor i).todo = done ++ (c'.gor i).todo := by
  cases hs <;> simp only [answered, moved, put_self]
  all_goals first
    | exact ⟨[], rfl⟩
    | (rename_i ht _ _; exact ⟨[_], ht⟩)
    | (rename_i ht _; exact ⟨[_], ht⟩)
    | (rename_i ht _ _ _; exact ⟨[_], ht⟩)
    | (rename_i ht _ _ _ _; exact ⟨[_], ht⟩)

theorem step_mem {c c' : Conf} {i : Nat} (hs : Step c i c') (j : Nat) (op : Op) (h : op ∈ (c'.gor j).todo) : op ∈ (c.gor j).todo := by
  by_cases hj : j = i
  · subst hj
    obtain ⟨d, hd⟩ := step_todo hs
    rw [hd]; simp [h]
  · rw [step_other hs j hj] at h; exact h

/-- The calls to come are among the calls of the program. -/
theorem reach_mem {h : Heap} {items : List (Option Addr)} {calls : Nat → List Op} {c : Conf} (hr : Reach (init h items calls) c) :
    ∀ j, ∀ op ∈ (c.gor j).todo, op ∈ calls j := by
  induction hr with
  | refl => intro j op h; exact h
  | step _ hs ih => intro j op h; exact ih j op (step_mem hs j op h)

theorem set_wrapped {h h' : Heap} {a : Addr} {k : Str} {v : Val} (nn : Wrapped h) (e : set h a k v = .ok h') : Wrapped h' := by
  simp only [Dataset.set] at e
  cases et : target h a with
  | none => rw [et] at e; cases e
  | some t =>
    rw [et] at e
    cases e
    intro b hb
    by_cases ht : t = b
    · subst ht
      rw [List.getElem?_set] at hb
      simp only [if_true] at hb
      split at hb <;> cases hb
    · rw [List.getElem?_set_ne ht] at hb; exact nn b hb

theorem set_total {h : Heap} (wf : WF h) (nn : Wrapped h) {a : Addr} (hd : IsDataset h a) (k : Str) (v : Val) : ∃ h', set h a k v = .ok h' := by
  obtain ⟨t, ht⟩ := wraps_exists wf nn a hd
  exact ⟨h.set t (.ds ((entries h t).set k v)), by simp only [Dataset.set, (target_iff wf).2 ht]⟩

theorem Legal.grow {h h' : Heap} (e : Ext' h h') {op : Op} (l : Legal h op) : Legal h' op := by
  cases op with
  | push d => obtain ⟨a, h1, h2⟩ := l; exact ⟨a, h1, e.isDataset h2⟩
  | unshift d => obtain ⟨a, h1, h2⟩ := l; exact ⟨a, h1, e.isDataset h2⟩
  | pop => exact l
  | shift => exact l
  | getData => trivial
  | assign a k v => exact ⟨e.isDataset l.1, l.2.grow e⟩

/-- A position a goroutine may be in. -/
def PosOK (h : Heap) (len : Nat) : Pos → Prop
  | .idle => True
  | .scan _ n => n ≤ len
  | .got _ n d => n ≤ len ∧ ∃ a, d = some a ∧ IsDataset h a

theorem PosOK.grow {h h' : Heap} (e : Ext' h h') {len len' : Nat} (hl : len ≤ len') {p : Pos} (ok : PosOK h len p) : PosOK h' len' p := by
  cases p with
  | idle => trivial
  | scan k n => exact Nat.le_trans ok hl
  | got k n d =>
    obtain ⟨h1, a, h2, h3⟩ := ok
    exact ⟨Nat.le_trans h1 hl, a, h2, e.isDataset h3⟩

/-- What holds in every schedule without `Pop` and `Shift`. -/
structure Safe (c : Conf) : Prop where
  wf : WF c.heap
  nn : Wrapped c.heap
  free : c.stuckW = false ∧ c.leaked = 0
  items : ∀ d ∈ c.items, ∃ a, d = some a ∧ IsDataset c.heap a
  pos : ∀ i, PosOK c.heap c.items.length (c.gor i).pos
  outs : ∀ i, Out.panic ∉ (c.gor i).outs
  todo : ∀ i, ∀ op ∈ (c.gor i).todo, Legal c.heap op

/-- What one goroutine satisfies. -/
structure GorOK (h : Heap) (len : Nat) (g : Gor) : Prop where
  pos : PosOK h len g.pos
  outs : Out.panic ∉ g.outs
  todo : ∀ op ∈ g.todo, Legal h op

theorem Safe.build {c : Conf} {i : Nat} (s : Safe c) {h' : Heap} {items' : List (Option Addr)} {g : Gor} (wf : WF h') (nn : Wrapped h')
    (e : Ext' c.heap h') (hlen : c.items.length ≤ items'.length) (hi : ∀ d ∈ items', ∃ a, d = some a ∧ IsDataset h' a)
    (hg : GorOK h' items'.length g) : Safe { c with heap := h', items := items', gor := put c.gor i g } := by
  have hj : ∀ j, GorOK h' items'.length (put c.gor i g j) := by
    intro j
    by_cases hj : j = i
    · subst hj; rw [put_self]; exact hg
    · rw [put_ne _ _ hj]
      exact ⟨(s.pos j).grow e hlen, s.outs j, fun op ho => (s.todo j op ho).grow e⟩
  exact ⟨wf, nn, s.free, hi, fun j => (hj j).pos, fun j => (hj j).outs, fun j => (hj j).todo⟩

theorem Safe.step {c c' : Conf} {i : Nat} (s : Safe c) (hs : Step c i c') : Safe c' := by
  have hT : ∀ op rest, (c.gor i).todo = op :: rest → Legal c.heap op ∧ ∀ o ∈ rest, Legal c.heap o := by
    intro op rest ht
    refine ⟨s.todo i op (by rw [ht]; simp), fun o ho => s.todo i o (by rw [ht]; simp [ho])⟩
  have hO : ∀ o, o ≠ Out.panic → Out.panic ∉ (c.gor i).outs ++ [o] := by
    intro o ho hm
    rcases List.mem_append.1 hm with h | h
    · exact s.outs i h
    · exact ho (by simpa using (List.mem_singleton.1 h).symm)
  have hP := s.pos i
  cases hs with
  | @push d rest hp ht hw hl =>
    obtain ⟨h1, h2⟩ := hT _ _ ht
    refine s.build s.wf s.nn (Ext'.refl _) (by simp) ?_ ⟨trivial, hO _ (by simp), h2⟩
    intro d' hd'
    rcases List.mem_append.1 hd' with h | h
    · exact s.items d' h
    · rw [List.mem_singleton.1 h]; exact h1
  | @unshift d rest hp ht hw hl =>
    obtain ⟨h1, h2⟩ := hT _ _ ht
    refine s.build s.wf s.nn (Ext'.refl _) (by simp) ?_ ⟨trivial, hO _ (by simp), h2⟩
    intro d' hd'
    rcases List.mem_cons.1 hd' with h | h
    · rw [h]; exact h1
    · exact s.items d' h
  | pop hp ht => exact absurd (hT _ _ ht).1 id
  | shift hp ht => exact absurd (hT _ _ ht).1 id
  | removePanic hp ht ho => rcases ho with rfl | rfl <;> exact absurd (hT _ _ ht).1 id
  | start hp ht hw => exact s.build s.wf s.nn (Ext'.refl _) (Nat.le_refl _) s.items ⟨Nat.le_refl _, s.outs i, (hT _ _ ht).2⟩
  | @read key n d hp hw hd =>
    rw [hp] at hP
    refine s.build s.wf s.nn (Ext'.refl _) (Nat.le_refl _) s.items ⟨⟨?_, s.items d (List.mem_of_getElem? hd)⟩, s.outs i, s.todo i⟩
    have : n + 1 ≤ c.items.length := hP
    omega
  | @readPanic key n hp hw hd =>
    rw [hp] at hP
    have h1 : n + 1 ≤ c.items.length := hP
    rw [List.getElem?_eq_none_iff] at hd
    omega
  | hit hp hg => exact s.build s.wf s.nn (Ext'.refl _) (Nat.le_refl _) s.items ⟨trivial, hO _ (by simp), s.todo i⟩
  | miss hp hg =>
    rw [hp] at hP
    exact s.build s.wf s.nn (Ext'.refl _) (Nat.le_refl _) s.items ⟨hP.1, s.outs i, s.todo i⟩
  | @getPanic key _ _ hp hg =>
    rw [hp] at hP
    obtain ⟨_, a, h1, h2⟩ := hP
    cases h1
    obtain ⟨r, hr⟩ := getSegs_no_panic s.wf s.nn h2 (split 62 key)
    have hr : Dataset.get c.heap _ key = .ok r := hr
    rw [hr] at hg
    cases hg
  | nilPanic hp =>
    rw [hp] at hP
    obtain ⟨_, a, h1, _⟩ := hP
    cases h1
  | finish hp => exact s.build s.wf s.nn (Ext'.refl _) (Nat.le_refl _) s.items ⟨trivial, hO _ (by simp), s.todo i⟩
  | @assign a k v h' rest hp ht hs =>
    obtain ⟨h1, h2⟩ := hT _ _ ht
    obtain ⟨wf', e⟩ := set_wf s.wf h1.2 hs
    refine s.build wf' (set_wrapped s.nn hs) e (Nat.le_refl _) ?_ ⟨trivial, hO _ (by simp), fun o ho => (h2 o ho).grow e⟩
    intro d hd
    obtain ⟨b, hb, hb2⟩ := s.items d hd
    exact ⟨b, hb, e.isDataset hb2⟩
  | @assignPanic a k v rest hp ht hs =>
    obtain ⟨h1, _⟩ := hT _ _ ht
    obtain ⟨h', hh⟩ := set_total s.wf s.nn h1.1 k v
    rw [hh] at hs
    cases hs

theorem Safe.init {h : Heap} {items : List (Option Addr)} {calls : Nat → List Op} (wf : WF h) (nn : Wrapped h)
    (hi : ∀ d ∈ items, ∃ a, d = some a ∧ IsDataset h a) (hc : ∀ i, ∀ op ∈ calls i, Legal h op) : Safe (init h items calls) :=
  ⟨wf, nn, ⟨rfl, rfl⟩, hi, fun _ => trivial, fun _ => by simp [CollectionConc.init], hc⟩

theorem Safe.reach {h : Heap} {items : List (Option Addr)} {calls : Nat → List Op} (wf : WF h) (nn : Wrapped h)
    (hi : ∀ d ∈ items, ∃ a, d = some a ∧ IsDataset h a) (hc : ∀ i, ∀ op ∈ calls i, Legal h op) {c : Conf}
    (hr : Reach (CollectionConc.init h items calls) c) : Safe c := by
  induction hr with
  | refl => exact Safe.init wf nn hi hc
  | step _ hs ih => exact ih.step hs

/-- In a safe configuration a goroutine that has work can do its next step at once. -/
theorem Safe.moves {c : Conf} (s : Safe c) (i : Nat) (h : (c.gor i).pos ≠ .idle ∨ (c.gor i).todo ≠ []) : ∃ c', Step c i c' := by
  have hP := s.pos i
  cases hp : (c.gor i).pos with
  | idle =>
    rw [hp] at h
    cases ht : (c.gor i).todo with
    | nil => simp [ht] at h
    | cons op rest =>
      have hl := s.todo i op (by rw [ht]; simp)
      cases op with
      | push d => exact ⟨_, .push hp ht s.free.1 s.free.2⟩
      | unshift d => exact ⟨_, .unshift hp ht s.free.1 s.free.2⟩
      | pop => exact absurd hl id
      | shift => exact absurd hl id
      | getData k => exact ⟨_, .start hp ht s.free.1⟩
      | assign a k v =>
        obtain ⟨h', hh⟩ := set_total s.wf s.nn hl.1 k v
        exact ⟨_, .assign hp ht hh⟩
  | scan k n =>
    cases n with
    | zero => exact ⟨_, .finish hp⟩
    | succ n =>
      rw [hp] at hP
      have h1 : n < c.items.length := hP
      exact ⟨_, .read hp s.free.1 (List.getElem?_eq_getElem h1)⟩
  | got k n d =>
    rw [hp] at hP
    obtain ⟨_, a, rfl, ha⟩ := hP
    obtain ⟨r, hr⟩ := getSegs_no_panic s.wf s.nn ha (split 62 k)
    cases r with
    | none => exact ⟨_, .miss hp hr⟩
    | some v => exact ⟨_, .hit hp hr⟩

/-! ## What a lookup answers -/

theorem Sourced.step {c0 c c' : Conf} {i j k : Nat} {key : Str} {v : Val} (h : Sourced c0 c i k key v) (hs : Step c j c') : Sourced c0 c' i k key v := by
  obtain ⟨c1, c2, a, h1, h2, h3, h4⟩ := h
  exact ⟨c1, c2, a, h1, h2, .step h3 hs, h4⟩

structure SrcInv (c0 c : Conf) : Prop where
  got : ∀ i key n a, (c.gor i).pos = .got key n (some a) →
    ∃ c1, Reach c0 c1 ∧ Reach c1 c ∧ UnderWay c1 i (c.gor i).outs.length key ∧ some a ∈ c1.items
  found : ∀ i k key v, (c.gor i).outs[k]? = some (.found key (some v)) → Sourced c0 c i k key v

/-- What a step does to the answers of the goroutine: nothing, or one more. -/
theorem step_outs {c c' : Conf} {i : Nat} (hs : Step c i c') : (c'.gor i).outs = (c.gor i).outs ∨ ∃ o, (c'.gor i).outs = (c.gor i).outs ++ [o] := by
  cases hs <;> simp only [answered, moved, put_self] <;> first | exact Or.inl trivial | exact Or.inr ⟨_, rfl⟩

theorem SrcInv.step {c0 c c' : Conf} {i : Nat} (hr : Reach c0 c) (s : SrcInv c0 c) (hs : Step c i c') : SrcInv c0 c' := by
  constructor
  · intro j key n a hp
    by_cases hj : j = i
    · subst hj
      cases hs with
      | read hp0 hw hd =>
        simp only [moved, put_self] at hp ⊢
        cases hp
        exact ⟨c, hr, .step .refl (.read hp0 hw hd), ⟨rfl, Or.inl ⟨_, hp0⟩⟩, List.mem_of_getElem? hd⟩
      | _ => simp only [answered, moved, put_self, reduceCtorEq] at hp
    · rw [step_other hs j hj] at hp ⊢
      obtain ⟨c1, h1, h2, h3⟩ := s.got j key n a hp
      exact ⟨c1, h1, .step h2 hs, h3⟩
  · intro j k key v ho
    by_cases hj : j = i
    · subst hj
      rcases step_outs hs with e | ⟨o, e⟩
      · rw [e] at ho; exact (s.found j k key v ho).step hs
      · rw [e] at ho
        rcases Nat.lt_or_ge k (c.gor j).outs.length with hk | hk
        · rw [List.getElem?_append_left hk] at ho; exact (s.found j k key v ho).step hs
        · rw [List.getElem?_append_right hk] at ho
          have hk2 : k = (c.gor j).outs.length := by
            rcases Nat.lt_or_ge (k - (c.gor j).outs.length) 1 with h | h
            · omega
            · rw [List.getElem?_eq_none (by simpa using h)] at ho; cases ho
          subst hk2
          simp only [Nat.sub_self, List.getElem?_cons_zero, Option.some.injEq] at ho
          subst ho
          cases hs with
          | @hit key' n a v' hp hg =>
            simp only [answered, put_self] at e
            have e := List.append_cancel_left e
            simp only [List.cons.injEq, Out.found.injEq, Option.some.injEq, and_true] at e
            obtain ⟨rfl, rfl⟩ := e
            obtain ⟨c1, h1, h2, h3, h4⟩ := s.got _ _ _ _ hp
            exact ⟨c1, c, a, h1, h2, .step .refl (.hit hp hg), h3, ⟨rfl, Or.inr ⟨_, _, hp⟩⟩, h4, hg⟩
          | _ =>
            simp only [answered, moved, put_self] at e
            first
              | (have e := List.append_cancel_left e
                 simp at e)
              | (have := congrArg List.length e; simp at this)
    · rw [step_other hs j hj] at ho
      exact (s.found j k key v ho).step hs

theorem SrcInv.reach {h : Heap} {items : List (Option Addr)} {calls : Nat → List Op} {c : Conf} (hr : Reach (CollectionConc.init h items calls) c) :
    SrcInv (CollectionConc.init h items calls) c := by
  induction hr with
  | refl => exact ⟨fun i key n a hp => (by cases hp), fun i k key v ho => (by simp [CollectionConc.init] at ho)⟩
  | step hr hs ih => exact ih.step hr hs

/-! ## Lookups while elements are only added at the end -/

/-- The elements from `n` on have been asked and had no value. -/
def Asked (c0 cs c : Conf) (i k : Nat) (key : Str) (n : Nat) : Prop :=
  Reach c0 cs ∧ Reach cs c ∧ Started cs i k key ∧ cs.items <+: c.items ∧ n ≤ cs.items.length ∧
    ∀ idx, n ≤ idx → idx < cs.items.length → ∃ a, cs.items[idx]? = some (some a) ∧ Missed cs c i k key a

theorem Missed.step {cs c c' : Conf} {i j k : Nat} {key : Str} {a : Addr} (h : Missed cs c i k key a) (hs : Step c j c') : Missed cs c' i k key a := by
  obtain ⟨c2, h1, h2, h3⟩ := h
  exact ⟨c2, h1, .step h2 hs, h3⟩

theorem Asked.step {c0 cs c c' : Conf} {i j k n : Nat} {key : Str} (h : Asked c0 cs c i k key n) (hs : Step c j c') (hp : c.items <+: c'.items) :
    Asked c0 cs c' i k key n := by
  obtain ⟨h1, h2, h3, h4, h5, h6⟩ := h
  refine ⟨h1, .step h2 hs, h3, h4.trans hp, h5, ?_⟩
  intro idx hn hl
  obtain ⟨a, ha, hm⟩ := h6 idx hn hl
  exact ⟨a, ha, hm.step hs⟩

/-- The answer of a lookup, element by element. -/
def Answered (c0 c : Conf) (i k : Nat) (key : Str) : Option Val → Prop
  | none => ∃ cs, Asked c0 cs c i k key 0
  | some v => ∃ cs n a c2, Asked c0 cs c i k key (n + 1) ∧ cs.items[n]? = some (some a) ∧ Reach cs c2 ∧ Reach c2 c ∧ UnderWay c2 i k key ∧
      get c2.heap a key = .ok (some v)

theorem Answered.step {c0 c c' : Conf} {i j k : Nat} {key : Str} {r : Option Val} (h : Answered c0 c i k key r) (hs : Step c j c')
    (hp : c.items <+: c'.items) : Answered c0 c' i k key r := by
  cases r with
  | none =>
    obtain ⟨cs, h⟩ := h
    exact ⟨cs, h.step hs hp⟩
  | some v =>
    obtain ⟨cs, n, a, c2, h1, h2, h3, h4, h5⟩ := h
    exact ⟨cs, n, a, c2, h1.step hs hp, h2, h3, .step h4 hs, h5⟩

structure AppInv (c0 c : Conf) : Prop where
  scan : ∀ i key n, (c.gor i).pos = .scan key n → ∃ cs, Asked c0 cs c i (c.gor i).outs.length key n
  got : ∀ i key n d, (c.gor i).pos = .got key n d → ∃ cs, Asked c0 cs c i (c.gor i).outs.length key (n + 1) ∧ cs.items[n]? = some d
  found : ∀ i k key r, (c.gor i).outs[k]? = some (.found key r) → Answered c0 c i k key r

theorem step_items {c c' : Conf} {i : Nat} (ha : ∀ op ∈ (c.gor i).todo, Appends op) (hs : Step c i c') : c.items <+: c'.items := by
  have hT : ∀ op rest, (c.gor i).todo = op :: rest → Appends op := fun op rest ht => ha op (by rw [ht]; simp)
  cases hs with
  | push => exact List.prefix_append _ _
  | unshift hp ht => exact absurd (hT _ _ ht) id
  | pop hp ht => exact absurd (hT _ _ ht) id
  | shift hp ht => exact absurd (hT _ _ ht) id
  | _ => exact List.prefix_refl _

theorem prefix_get {α : Type} {l l' : List α} (h : l <+: l') {n : Nat} (hn : n < l.length) : l'[n]? = l[n]? := by
  obtain ⟨t, rfl⟩ := h
  exact List.getElem?_append_left hn

theorem AppInv.step {c0 c c' : Conf} {i : Nat} (hr : Reach c0 c) (s : AppInv c0 c) (ha : ∀ op ∈ (c.gor i).todo, Appends op) (hs : Step c i c') :
    AppInv c0 c' := by
  have hpre := step_items ha hs
  constructor
  · intro j key n hp
    by_cases hj : j = i
    · subst hj
      have hs0 := hs
      cases hs with
      | start hp0 ht hw =>
        simp only [moved, put_self] at hp ⊢
        cases hp
        refine ⟨_, .step hr hs0, .refl, ⟨by simp [moved, put_self], by simp [moved, put_self]⟩, List.prefix_refl _, Nat.le_refl _, ?_⟩
        intro idx h1 h2
        exact absurd h2 (by simp only; omega)
      | @miss key' n' a hp0 hg =>
        simp only [moved, put_self] at hp ⊢
        cases hp
        obtain ⟨cs, h, hd⟩ := s.got _ _ _ _ hp0
        have hlt : n < cs.items.length := by have := h.2.2.2.2.1; omega
        have h2 := h.step hs0 hpre
        refine ⟨cs, h2.1, h2.2.1, h2.2.2.1, h2.2.2.2.1, by omega, ?_⟩
        intro idx h3 h4
        by_cases he : idx = n
        · subst he
          exact ⟨a, hd, c, h.2.1, .step .refl hs0, ⟨rfl, Or.inr ⟨_, _, hp0⟩⟩, hg⟩
        · exact h2.2.2.2.2.2 idx (by omega) h4
      | _ => simp only [answered, moved, put_self, reduceCtorEq] at hp
    · rw [step_other hs j hj] at hp ⊢
      obtain ⟨cs, h⟩ := s.scan j key n hp
      exact ⟨cs, h.step hs hpre⟩
  · intro j key n d hp
    by_cases hj : j = i
    · subst hj
      have hs0 := hs
      cases hs with
      | @read key' n' d' hp0 hw hd =>
        simp only [moved, put_self] at hp ⊢
        cases hp
        obtain ⟨cs, h⟩ := s.scan _ _ _ hp0
        have hlt : n < cs.items.length := by have := h.2.2.2.2.1; omega
        refine ⟨cs, h.step hs0 hpre, ?_⟩
        rw [← prefix_get h.2.2.2.1 hlt, hd]
      | _ => simp only [answered, moved, put_self, reduceCtorEq] at hp
    · rw [step_other hs j hj] at hp ⊢
      obtain ⟨cs, h, hd⟩ := s.got j key n d hp
      exact ⟨cs, h.step hs hpre, hd⟩
  · intro j k key r ho
    by_cases hj : j = i
    · subst hj
      rcases step_outs hs with e | ⟨o, e⟩
      · rw [e] at ho; exact (s.found j k key r ho).step hs hpre
      · rw [e] at ho
        rcases Nat.lt_or_ge k (c.gor j).outs.length with hk | hk
        · rw [List.getElem?_append_left hk] at ho; exact (s.found j k key r ho).step hs hpre
        · rw [List.getElem?_append_right hk] at ho
          have hk2 : k = (c.gor j).outs.length := by
            rcases Nat.lt_or_ge (k - (c.gor j).outs.length) 1 with h | h
            · omega
            · rw [List.getElem?_eq_none (by simpa using h)] at ho; cases ho
          subst hk2
          simp only [Nat.sub_self, List.getElem?_cons_zero, Option.some.injEq] at ho
          subst ho
          have hs0 := hs
          cases hs with
          | @hit key' n a v' hp hg =>
            simp only [answered, put_self] at e
            have e := List.append_cancel_left e
            simp only [List.cons.injEq, Out.found.injEq, and_true] at e
            obtain ⟨rfl, rfl⟩ := e
            obtain ⟨cs, h, hd⟩ := s.got _ _ _ _ hp
            exact ⟨cs, n, a, c, h.step hs0 hpre, hd, h.2.1, .step .refl hs0, ⟨rfl, Or.inr ⟨_, _, hp⟩⟩, hg⟩
          | @finish key' hp =>
            simp only [answered, put_self] at e
            have e := List.append_cancel_left e
            simp only [List.cons.injEq, Out.found.injEq, and_true] at e
            obtain ⟨rfl, rfl⟩ := e
            obtain ⟨cs, h⟩ := s.scan _ _ _ hp
            exact ⟨cs, h.step hs0 hpre⟩
          | _ =>
            simp only [answered, moved, put_self] at e
            first
              | (have e := List.append_cancel_left e
                 simp at e)
              | (have := congrArg List.length e; simp at this)
    · rw [step_other hs j hj] at ho
      exact (s.found j k key r ho).step hs hpre

theorem AppInv.reach {h : Heap} {items : List (Option Addr)} {calls : Nat → List Op} (ha : ∀ i, ∀ op ∈ calls i, Appends op) {c : Conf}
    (hr : Reach (CollectionConc.init h items calls) c) : AppInv (CollectionConc.init h items calls) c := by
  induction hr with
  | refl =>
    exact ⟨fun i key n hp => (by cases hp), fun i key n d hp => (by cases hp), fun i k key v ho => (by simp [CollectionConc.init] at ho)⟩
  | step hr hs ih => exact ih.step hr (fun op ho => ha _ op (reach_mem hr _ op ho)) hs

/-- Asking the elements from the last to the first. -/
theorem getDataL_append_miss {h : Heap} {key : Str} : ∀ (l l' : List (Option Addr)),
    (∀ d ∈ l, ∃ a, d = some a ∧ get h a key = .ok none) → getDataL h key (l ++ l') = getDataL h key l' := by
  intro l
  induction l with
  | nil => intros; rfl
  | cons d l ih =>
    intro l' hm
    obtain ⟨a, rfl, ha⟩ := hm d (by simp)
    simp only [List.cons_append, getDataL, ha, Res.bind]
    exact ih l' (fun d hd => hm d (by simp [hd]))

theorem getDataL_of_asked {h : Heap} {key : Str} {l : List (Option Addr)} {n : Nat} (hn : n ≤ l.length)
    (hm : ∀ idx, n ≤ idx → idx < l.length → ∃ a, l[idx]? = some (some a) ∧ get h a key = .ok none) :
    getDataL h key l.reverse = getDataL h key (l.take n).reverse := by
  conv => lhs; rw [← List.take_append_drop n l, List.reverse_append]
  apply getDataL_append_miss
  intro d hd
  rw [List.mem_reverse] at hd
  obtain ⟨j, hj, he⟩ := List.getElem_of_mem hd
  rw [List.getElem_drop] at he
  rw [List.length_drop] at hj
  obtain ⟨a, h1, h2⟩ := hm (n + j) (by omega) (by omega)
  rw [List.getElem?_eq_getElem (by omega), he] at h1
  exact ⟨a, by simpa using h1, h2⟩

theorem step_heap {c c' : Conf} {i : Nat} (hs : Step c i c') (hn : ∀ op ∈ (c.gor i).todo, ∀ a k v, op ≠ .assign a k v) : c'.heap = c.heap := by
  cases hs with
  | assign hp ht _ => exact absurd rfl (hn _ (by rw [ht]; exact List.mem_cons_self) _ _ _)
  | _ => rfl

theorem reach_heap {h : Heap} {items : List (Option Addr)} {calls : Nat → List Op} (hn : ∀ i, ∀ op ∈ calls i, ∀ a k v, op ≠ .assign a k v) {c : Conf}
    (hr : Reach (CollectionConc.init h items calls) c) : c.heap = h := by
  induction hr with
  | refl => rfl
  | step hr hs ih => rw [step_heap hs (fun op ho => hn _ op (reach_mem hr _ op ho)), ih]

/-! ## A read lock left behind -/

theorem step_leaked {c c' : Conf} {i : Nat} (hl : 0 < c.leaked) (hs : Step c i c') : 0 < c'.leaked ∧ c'.items = c.items ∧ c'.stuckW = c.stuckW := by
  cases hs with
  | push _ _ _ h => omega
  | unshift _ _ _ h => omega
  | pop _ _ _ h => omega
  | shift _ _ _ h => omega
  | removePanic _ _ _ _ h => omega
  | readPanic => exact ⟨by simp, rfl, rfl⟩
  | _ => exact ⟨hl, rfl, rfl⟩

end Xcore.CollectionConc
