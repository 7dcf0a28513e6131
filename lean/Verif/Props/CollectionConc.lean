import Verif.Proof.CollectionConc

/-!
# Properties C27 and C61: lookups in an `XDatasetCollectionTS` that other goroutines change

`init h items calls`: the datasets are in the heap `h`, the collection has the elements `items`, goroutine `i` makes the calls `calls i`. `Reach`
ranges over all schedules.
-/

namespace Xcore.CollectionConc

open Dataset

/-- **C27** (false as stated) A lookup panics if another goroutine removes the element between the moment the lookup reads the length and the moment
it reads the element. -/
theorem C27_lookup_panics (h : Heap) (items : List (Option Addr)) (hne : items ≠ []) (key : Str) (calls : Nat → List Op) (r0 r1 : List Op)
    (h0 : calls 0 = .getData key :: r0) (h1 : calls 1 = .pop :: r1) :
    ∃ c, Reach (init h items calls) c ∧ (c.gor 0).outs = [.panic] ∧ c.leaked = 1 := by
  obtain ⟨l, d, rfl⟩ : ∃ l d, items = l ++ [d] := ⟨items.dropLast, items.getLast hne, (List.dropLast_concat_getLast hne).symm⟩
  have e : (l ++ [d]).length = l.length + 1 := by simp
  refine ⟨_, .step (.step (.step .refl (.start (i := 0) rfl h0 rfl)) (.pop (i := 1) (d := d) (rest := r1) ?_ ?_ rfl rfl ?_))
    (.readPanic (i := 0) (key := key) (n := l.length) ?_ rfl ?_), ?_, rfl⟩
  · simp [moved, put, init]
  · simpa [moved, put, init] using h1
  · simp [init]
  · simp [moved, answered, put, init]
  · simp [init]
  · simp [moved, answered, put, init]

/-- **C27**, **C28** After such a panic nobody can add or remove an element any more, in any continuation: the read lock is left behind. -/
theorem C27_panic_blocks_changes (c : Conf) (hl : 0 < c.leaked) (c' : Conf) (hr : Reach c c') :
    c'.items = c.items ∧ ∀ j op rest, (c'.gor j).pos = .idle → (c'.gor j).todo = op :: rest →
      (∃ d, op = .push d ∨ op = .unshift d) ∨ op = .pop ∨ op = .shift → ∀ c'', ¬ Step c' j c'' := by
  have hinv : c'.items = c.items ∧ 0 < c'.leaked := by
    induction hr with
    | refl => exact ⟨rfl, hl⟩
    | step _ hs ih =>
      obtain ⟨h1, h2, _⟩ := step_leaked ih.2 hs
      exact ⟨h2.trans ih.1, h1⟩
  refine ⟨hinv.1, ?_⟩
  intro j op rest hp ht hop c'' hs
  have hlk := hinv.2
  cases hs with
  | push _ _ _ h => omega
  | unshift _ _ _ h => omega
  | pop _ _ _ h => omega
  | shift _ _ _ h => omega
  | removePanic _ _ _ _ h => omega
  | start _ ht' => rw [ht] at ht'; cases ht'; simp at hop
  | assign _ ht' => rw [ht] at ht'; cases ht'; simp at hop
  | assignPanic _ ht' => rw [ht] at ht'; cases ht'; simp at hop
  | read h => rw [hp] at h; cases h
  | readPanic h => rw [hp] at h; cases h
  | hit h => rw [hp] at h; cases h
  | miss h => rw [hp] at h; cases h
  | getPanic h => rw [hp] at h; cases h
  | nilPanic h => rw [hp] at h; cases h
  | finish h => rw [hp] at h; cases h

/-- **C27** (partial: programs without `Pop` and `Shift`, no nil elements and no wrapper around nothing) No call panics in any schedule, no lock is left
behind, and a goroutine that has work can always do its next step at once. -/
theorem C27_safe_without_removals_partial (h : Heap) (items : List (Option Addr)) (calls : Nat → List Op) (wf : WF h) (nn : Wrapped h)
    (hi : ∀ d ∈ items, ∃ a, d = some a ∧ IsDataset h a) (hc : ∀ i, ∀ op ∈ calls i, Legal h op) (c : Conf) (hr : Reach (init h items calls) c) :
    (∀ i, Out.panic ∉ (c.gor i).outs) ∧ c.leaked = 0 ∧ c.stuckW = false ∧
      ∀ i, (c.gor i).pos ≠ .idle ∨ (c.gor i).todo ≠ [] → ∃ c', Step c i c' := by
  have s := Safe.reach wf nn hi hc hr
  exact ⟨s.outs, s.free.2, s.free.1, s.moves⟩

/-- **C27** In every schedule, whatever is added and removed, a value a lookup answers is one that an element of the collection had: the element was
in the collection at a moment during the call, and had the value at a later moment during the call. -/
theorem C27_value_comes_from_an_element (h : Heap) (items : List (Option Addr)) (calls : Nat → List Op) (c : Conf) (hr : Reach (init h items calls) c)
    (i k : Nat) (key : Str) (v : Val) (ho : (c.gor i).outs[k]? = some (.found key (some v))) : Sourced (init h items calls) c i k key v :=
  (SrcInv.reach hr).found i k key v ho

/-- **C27** (partial: only `Push` and lookups) Every lookup answers what it would have answered alone at the moment it read the length. -/
theorem C27_append_only_is_sequential_partial (h : Heap) (items : List (Option Addr)) (calls : Nat → List Op)
    (hc : ∀ i, ∀ op ∈ calls i, (∃ d, op = .push d) ∨ ∃ key, op = .getData key) (c : Conf) (hr : Reach (init h items calls) c)
    (i k : Nat) (key : Str) (r : Option Val) (ho : (c.gor i).outs[k]? = some (.found key r)) :
    ∃ cs, Reach (init h items calls) cs ∧ Reach cs c ∧ Started cs i k key ∧ getDataL h key cs.items.reverse = .ok r := by
  have ha : ∀ i, ∀ op ∈ calls i, Appends op := by
    intro i op ho
    rcases hc i op ho with ⟨d, rfl⟩ | ⟨key, rfl⟩ <;> trivial
  have hn : ∀ i, ∀ op ∈ calls i, ∀ a k v, op ≠ .assign a k v := by
    intro i op ho a k v e
    rcases hc i op ho with ⟨d, rfl⟩ | ⟨key, rfl⟩ <;> cases e
  have hh : ∀ cs c2, Reach (init h items calls) cs → Reach cs c2 → c2.heap = h := fun cs c2 h1 h2 => reach_heap hn (h1.trans h2)
  have hA := (AppInv.reach ha hr).found i k key r ho
  cases r with
  | none =>
    obtain ⟨cs, h1, h2, h3, h4, h5, h6⟩ := hA
    refine ⟨cs, h1, h2, h3, ?_⟩
    rw [getDataL_of_asked (n := 0) h5 ?_]
    · rfl
    · intro idx hi hl
      obtain ⟨a, ha, c2, h7, _, _, h8⟩ := h6 idx hi hl
      rw [hh cs c2 h1 h7] at h8
      exact ⟨a, ha, h8⟩
  | some v =>
    obtain ⟨cs, n, a, c2, ⟨h1, h2, h3, h4, h5, h6⟩, hd, h7, h8, _, hg⟩ := hA
    refine ⟨cs, h1, h2, h3, ?_⟩
    rw [getDataL_of_asked h5 ?_]
    · rw [List.take_add_one, hd]
      rw [hh cs c2 h1 h7] at hg
      simp only [Option.toList, List.reverse_append, List.reverse_cons, List.reverse_nil, List.nil_append, List.cons_append, getDataL, hg, Res.bind]
    · intro idx hi hl
      obtain ⟨a, ha, c2, h7, _, _, h8⟩ := h6 idx hi hl
      rw [hh cs c2 h1 h7] at h8
      exact ⟨a, ha, h8⟩

/-- **C61** (false as stated) A lookup does not find a value although an element has it and is in the collection all the time: another goroutine
inserts an element at the beginning, and the lookup asks the inserted element instead. -/
theorem C61_unshift_hides_an_element (h : Heap) (a x : Addr) (key : Str) (v : Val) (hv : Dataset.get h a key = .ok (some v)) (hx : Dataset.get h x key = .ok none)
    (calls : Nat → List Op) (h0 : calls 0 = [.getData key]) (h1 : calls 1 = [.unshift (some x)]) (h2 : ∀ i, 2 ≤ i → calls i = []) :
    (∃ c, Reach (init h [some a] calls) c ∧ (c.gor 0).outs = [.found key none]) ∧
    (∀ c, Reach (init h [some a] calls) c → some a ∈ c.items ∧ Dataset.get c.heap a key = .ok (some v)) := by
  constructor
  · refine ⟨_, .step (.step (.step (.step (.step .refl (.start (i := 0) rfl h0 rfl)) (.unshift (i := 1) (d := some x) (rest := []) ?_ ?_ rfl rfl))
      (.read (i := 0) (key := key) (n := 0) (d := some x) ?_ rfl ?_)) (.miss (i := 0) (key := key) (n := 0) (a := x) ?_ ?_)) (.finish (i := 0) (key := key) ?_), ?_⟩
    · simp [moved, put, init]
    · simpa [moved, put, init] using h1
    · simp [moved, answered, put, init]
    · simp [init]
    · simp [moved, answered, put, init]
    · exact hx
    · simp [moved, answered, put, init]
    · simp [moved, answered, put, init]
  · intro c hr
    have hmem : ∀ i, ∀ op ∈ calls i, op = .getData key ∨ op = .unshift (some x) := by
      intro i op ho
      rcases i with _ | _ | i
      · rw [h0] at ho; simp at ho; exact Or.inl ho
      · rw [h1] at ho; simp at ho; exact Or.inr ho
      · rw [h2 (i + 2) (by omega)] at ho; simp at ho
    have hn : ∀ i, ∀ op ∈ calls i, ∀ a k v, op ≠ .assign a k v := by
      intro i op ho a k v e
      rcases hmem i op ho with rfl | rfl <;> cases e
    refine ⟨?_, by rw [reach_heap hn hr]; exact hv⟩
    induction hr with
    | refl => simp [init]
    | @step c c' i hr hs ih =>
      have hT : ∀ op ∈ (c.gor i).todo, op = .getData key ∨ op = .unshift (some x) := fun op ho => hmem i op (reach_mem hr i op ho)
      cases hs with
      | push _ ht => have := hT _ (by rw [ht]; exact List.mem_cons_self); simp at this
      | pop _ ht => have := hT _ (by rw [ht]; exact List.mem_cons_self); simp at this
      | shift _ ht => have := hT _ (by rw [ht]; exact List.mem_cons_self); simp at this
      | unshift => exact List.mem_cons_of_mem _ ih
      | _ => exact ih

/-- **C61** (partial: programs without `Unshift`, `Pop` and `Shift`; `Push` and changes of the datasets are allowed) If a lookup finds nothing, then every
element that was in the collection when the lookup started had no value at some moment during the call. -/
theorem C61_nothing_is_missed_while_appending_partial (h : Heap) (items : List (Option Addr)) (calls : Nat → List Op)
    (hc : ∀ i, ∀ op ∈ calls i, Appends op) (c : Conf) (hr : Reach (init h items calls) c)
    (i k : Nat) (key : Str) (ho : (c.gor i).outs[k]? = some (.found key none)) :
    ∃ cs, Reach (init h items calls) cs ∧ Reach cs c ∧ Started cs i k key ∧ ∀ a, some a ∈ cs.items → Missed cs c i k key a := by
  obtain ⟨cs, h1, h2, h3, h4, h5, h6⟩ := (AppInv.reach hc hr).found i k key none ho
  refine ⟨cs, h1, h2, h3, ?_⟩
  intro a ha
  obtain ⟨idx, hl, he⟩ := List.getElem_of_mem ha
  obtain ⟨b, hb, hm⟩ := h6 idx (by omega) hl
  rw [List.getElem?_eq_getElem hl, he] at hb
  cases hb
  exact hm

/-- Non-vacuity: two elements, the first has the key; one goroutine looks the key up, another one appends. -/
def exHeap : Heap := [.ds [(b!"k", .str b!"v")], .ds []]
def exCalls : Nat → List Op
  | 0 => [.getData b!"k"]
  | 1 => [.push (some 1), .assign 1 b!"k" (.str b!"w")]
  | _ => []

example : WF exHeap ∧ Wrapped exHeap ∧ (∀ d ∈ [some 0, some 1], ∃ a, d = some a ∧ IsDataset exHeap a) ∧ (∀ i, ∀ op ∈ exCalls i, Legal exHeap op) ∧
    ∀ i, ∀ op ∈ exCalls i, Appends op := by
  refine ⟨wf_iff.2 ?_, ?_, ?_, ?_, ?_⟩
  · intro a o ho
    match a with
    | 0 => simp [exHeap] at ho; subst ho; simp [Good, AMap.Nodup, AMap.keys, Valid]
    | 1 => simp [exHeap] at ho; subst ho; simp [Good, AMap.Nodup, AMap.keys]
    | n + 2 => simp [exHeap] at ho
  · intro a ha
    match a with
    | 0 => simp [exHeap] at ha
    | 1 => simp [exHeap] at ha
    | n + 2 => simp [exHeap] at ha
  · intro d hd
    simp only [List.mem_cons, List.not_mem_nil, or_false] at hd
    rcases hd with rfl | rfl
    · exact ⟨0, rfl, Or.inl ⟨_, rfl⟩⟩
    · exact ⟨1, rfl, Or.inl ⟨_, rfl⟩⟩
  · intro i op ho
    match i with
    | 0 => simp [exCalls] at ho; subst ho; trivial
    | 1 =>
      simp [exCalls] at ho
      rcases ho with rfl | rfl
      · exact ⟨1, rfl, Or.inl ⟨_, rfl⟩⟩
      · exact ⟨Or.inl ⟨_, rfl⟩, trivial⟩
    | n + 2 => simp [exCalls] at ho
  · intro i op ho
    match i with
    | 0 => simp [exCalls] at ho; subst ho; trivial
    | 1 => simp [exCalls] at ho; rcases ho with rfl | rfl <;> trivial
    | n + 2 => simp [exCalls] at ho

end Xcore.CollectionConc
