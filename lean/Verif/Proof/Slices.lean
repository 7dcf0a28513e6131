import Verif.Spec.Slices

/-! # Slices of private arrays are lists -/

namespace Xcore.Slices

/-- A slice reaches to the end of its array. -/
structure Ok (arrays : List (List Elem)) (s : Slice) : Prop where
  len : s.len ≤ s.cap
  arr : 0 < s.cap → ∃ a, arrays[s.arr]? = some a ∧ s.off + s.cap = a.length

/-- Two slices do not use the same array. -/
def Apart (s t : Slice) : Prop := 0 < s.cap → 0 < t.cap → s.arr ≠ t.arr

theorem Apart.symm {s t : Slice} (h : Apart s t) : Apart t s := fun a b e => h b a e.symm

theorem elems_length {arrays : List (List Elem)} {s : Slice} (h : Ok arrays s) : (elems arrays s).length = s.len := by
  by_cases hc : 0 < s.cap
  · obtain ⟨a, ha, hl⟩ := h.arr hc
    have := h.len
    unfold elems
    rw [ha]
    simp; omega
  · have := h.len
    have : s.len = 0 := by omega
    simp [elems, this]

theorem elems_zero {arrays : List (List Elem)} {s : Slice} (h : Ok arrays s) (hc : ¬ 0 < s.cap) : elems arrays s = [] := by
  apply List.eq_nil_of_length_eq_zero
  rw [elems_length h]
  have := h.len; omega

theorem write_length {l : List Elem} {p : Nat} {xs : List Elem} (h : p + xs.length ≤ l.length) : (write l p xs).length = l.length := by
  unfold write; simp; omega

theorem write_nil (l : List Elem) (p : Nat) : write l p [] = l := by simp [write]

/-- The elements of a slice do not change when its array stays. -/
theorem elems_of_eq {arrays arrays' : List (List Elem)} {t : Slice} (ht : Ok arrays t) (h : 0 < t.cap → arrays'[t.arr]? = arrays[t.arr]?) :
    elems arrays' t = elems arrays t ∧ Ok arrays' t := by
  by_cases hc : 0 < t.cap
  · refine ⟨by unfold elems; rw [h hc], ht.len, fun _ => by rw [h hc]; exact ht.arr hc⟩
  · have ho : Ok arrays' t := ⟨ht.len, fun x => absurd x hc⟩
    exact ⟨by rw [elems_zero ht hc, elems_zero ho hc], ho⟩

/-- What `append` does: it adds the elements, and disturbs no slice of another array. -/
theorem append_ok (spare : Nat → Nat → Nat) {arrays : List (List Elem)} {s : Slice} (hs : Ok arrays s) (xs : List Elem) :
    elems (append spare arrays s xs).1 (append spare arrays s xs).2 = elems arrays s ++ xs ∧
    Ok (append spare arrays s xs).1 (append spare arrays s xs).2 ∧
    ∀ t, Ok arrays t → Apart t s → elems (append spare arrays s xs).1 t = elems arrays t ∧ Ok (append spare arrays s xs).1 t ∧
      Apart t (append spare arrays s xs).2 := by
  unfold append
  by_cases hc : s.len + xs.length ≤ s.cap
  · rw [if_pos hc]
    dsimp only
    cases xs with
    | nil =>
      have hid : arrays.modify s.arr (write · (s.off + s.len) []) = arrays := by
        have : (write · (s.off + s.len) []) = (id : List Elem → List Elem) := by funext l; exact write_nil l _
        rw [this, List.modify_id]
      rw [hid]
      exact ⟨by simp [elems], ⟨hs.len, hs.arr⟩, fun t ht ha => ⟨rfl, ht, ha⟩⟩
    | cons x xs =>
      have hpos : 0 < s.cap := by simp at hc; omega
      obtain ⟨a, ha, hl⟩ := hs.arr hpos
      have hget : (arrays.modify s.arr (write · (s.off + s.len) (x :: xs)))[s.arr]? = some (write a (s.off + s.len) (x :: xs)) := by
        rw [List.getElem?_modify]; simp [ha]
      have hw : (write a (s.off + s.len) (x :: xs)).length = a.length := write_length (by omega)
      refine ⟨?_, ⟨hc, fun _ => ⟨_, hget, by rw [hw]; exact hl⟩⟩, ?_⟩
      · unfold elems
        dsimp only
        rw [hget, ha]
        simp only [Option.getD_some]
        unfold write
        have h1 : (a.take (s.off + s.len)).length = s.off + s.len := by simp; omega
        rw [List.append_assoc, List.drop_append_of_le_length (by omega), ← List.append_assoc, List.take_append_of_le_length]
        · rw [List.take_of_length_le (by simp; omega), List.drop_take]
          congr 2; omega
        · simp; omega
      · intro t ht hap
        have := elems_of_eq (arrays' := arrays.modify s.arr (write · (s.off + s.len) (x :: xs))) ht (fun h => by
          rw [List.getElem?_modify]
          have := hap h hpos
          cases arrays[t.arr]? with
          | none => rfl
          | some l => show some (if s.arr = t.arr then _ else l) = some l; rw [if_neg (fun e => this e.symm)])
        exact ⟨this.1, this.2, hap⟩
  · rw [if_neg hc]
    dsimp only
    have hget : (arrays ++ [elems arrays s ++ xs ++ List.replicate (spare s.cap (s.len + xs.length)) none])[arrays.length]? =
        some (elems arrays s ++ xs ++ List.replicate (spare s.cap (s.len + xs.length)) none) := by simp
    have hlen := elems_length hs
    refine ⟨?_, ⟨by dsimp only; omega, fun _ => ⟨_, hget, by simp [hlen]; omega⟩⟩, ?_⟩
    · generalize elems arrays s = es at hget hlen ⊢
      unfold elems
      dsimp only
      rw [hget]
      simp only [Option.getD_some, List.drop_zero]
      exact List.take_left' (by rw [List.length_append, hlen])
    · intro t ht _
      have hlt : 0 < t.cap → t.arr < arrays.length := fun h => by
        obtain ⟨a, ha, _⟩ := ht.arr h
        exact (List.getElem?_eq_some_iff.1 ha).1
      have := elems_of_eq (arrays' := arrays ++ [elems arrays s ++ xs ++ List.replicate (spare s.cap (s.len + xs.length)) none]) ht (fun h => by
        rw [List.getElem?_append_left (hlt h)])
      exact ⟨this.1, this.2, fun h _ e => by have := hlt h; dsimp only at e; omega⟩

theorem ok_empty (arrays : List (List Elem)) : Ok arrays ⟨0, 0, 0, 0⟩ := ⟨Nat.le_refl _, fun h => absurd h (by decide)⟩

theorem apart_empty (t : Slice) : Apart t ⟨0, 0, 0, 0⟩ := fun _ h => absurd h (by decide)

theorem literal_ok (arrays : List (List Elem)) (xs : List Elem) :
    elems (literal arrays xs).1 (literal arrays xs).2 = xs ∧ Ok (literal arrays xs).1 (literal arrays xs).2 ∧
    ∀ t, Ok arrays t → elems (literal arrays xs).1 t = elems arrays t ∧ Ok (literal arrays xs).1 t ∧ Apart t (literal arrays xs).2 := by
  unfold literal
  by_cases hx : xs = []
  · rw [if_pos hx]
    exact ⟨by rw [hx]; rfl, ok_empty _, fun t ht => ⟨rfl, ht, apart_empty t⟩⟩
  · rw [if_neg hx]
    dsimp only
    have hget : (arrays ++ [xs])[arrays.length]? = some xs := by simp
    refine ⟨?_, ⟨Nat.le_refl _, fun _ => ⟨_, hget, by simp⟩⟩, ?_⟩
    · simp [elems]
    · intro t ht
      have hlt : 0 < t.cap → t.arr < arrays.length := fun h => by
        obtain ⟨a, ha, _⟩ := ht.arr h
        exact (List.getElem?_eq_some_iff.1 ha).1
      have := elems_of_eq (arrays' := arrays ++ [xs]) ht (fun h => by rw [List.getElem?_append_left (hlt h)])
      exact ⟨this.1, this.2, fun h _ e => by have := hlt h; dsimp only at e; omega⟩

theorem cloneLoop_ok (spare : Nat → Nat → Nat) : ∀ (xs : List Elem) {arrays : List (List Elem)} {s : Slice}, Ok arrays s →
    elems (cloneLoop spare arrays s xs).1 (cloneLoop spare arrays s xs).2 = elems arrays s ++ xs ∧
    Ok (cloneLoop spare arrays s xs).1 (cloneLoop spare arrays s xs).2 ∧
    ∀ t, Ok arrays t → Apart t s → elems (cloneLoop spare arrays s xs).1 t = elems arrays t ∧ Ok (cloneLoop spare arrays s xs).1 t ∧
      Apart t (cloneLoop spare arrays s xs).2
  | [], _, _, hs => ⟨by simp [cloneLoop], hs, fun t ht ha => ⟨rfl, ht, ha⟩⟩
  | x :: xs, arrays, s, hs => by
    obtain ⟨a1, a2, a3⟩ := append_ok spare hs [x]
    obtain ⟨b1, b2, b3⟩ := cloneLoop_ok spare xs a2
    refine ⟨by rw [cloneLoop]; rw [b1, a1]; simp, b2, fun t ht hap => ?_⟩
    obtain ⟨c1, c2, c3⟩ := a3 t ht hap
    obtain ⟨d1, d2, d3⟩ := b3 t c2 c3
    exact ⟨d1.trans c1, d2, d3⟩

/-- Every collection has its array for itself. -/
structure Good (m : Mem) : Prop where
  ok : ∀ s ∈ m.cols, Ok m.arrays s
  apart : m.cols.Pairwise Apart

/-- A collection more. -/
theorem add_ok {m : Mem} (h : Good m) {arrays' : List (List Elem)} {s' : Slice} (hs : Ok arrays' s')
    (ht : ∀ t, Ok m.arrays t → elems arrays' t = elems m.arrays t ∧ Ok arrays' t ∧ Apart t s') :
    Good ⟨arrays', m.cols ++ [s']⟩ ∧ lists ⟨arrays', m.cols ++ [s']⟩ = lists m ++ [elems arrays' s'] := by
  refine ⟨⟨?_, ?_⟩, ?_⟩
  · intro s hm
    rcases List.mem_append.1 hm with hm | hm
    · exact (ht s (h.ok s hm)).2.1
    · rw [List.mem_singleton.1 hm]; exact hs
  · refine List.pairwise_append.2 ⟨h.apart, List.pairwise_singleton _ _, ?_⟩
    intro a ha b hb
    rw [List.mem_singleton.1 hb]
    exact (ht a (h.ok a ha)).2.2
  · unfold lists
    simp only [List.map_append, List.map_cons, List.map_nil]
    congr 1
    exact List.map_congr_left fun t hm => (ht t (h.ok t hm)).1

/-- Another slice for the collection `c`. -/
theorem set_ok {m : Mem} (h : Good m) {c : Nat} {s : Slice} (hc : m.cols[c]? = some s) {arrays' : List (List Elem)} {s' : Slice} (hs : Ok arrays' s')
    (ht : ∀ t, Ok m.arrays t → Apart t s → elems arrays' t = elems m.arrays t ∧ Ok arrays' t ∧ Apart t s') :
    Good ⟨arrays', m.cols.set c s'⟩ ∧ lists ⟨arrays', m.cols.set c s'⟩ = (lists m).set c (elems arrays' s') := by
  obtain ⟨hlt, hget⟩ := List.getElem?_eq_some_iff.1 hc
  have hsplit : m.cols = m.cols.take c ++ s :: m.cols.drop (c + 1) := by
    rw [← hget, List.getElem_cons_drop hlt, List.take_append_drop]
  have hset : m.cols.set c s' = m.cols.take c ++ s' :: m.cols.drop (c + 1) := by
    rw [List.set_eq_take_append_cons_drop, if_pos hlt]
  have hap := h.apart
  have hok := h.ok
  have hlen : (m.cols.take c).length = c := by simp; omega
  have hlists : lists m = (m.cols.take c).map (elems m.arrays) ++ elems m.arrays s :: (m.cols.drop (c + 1)).map (elems m.arrays) := by
    unfold lists
    conv => lhs; rw [hsplit]
    rw [List.map_append, List.map_cons]
  rw [hlists]
  unfold lists
  dsimp only
  rw [hset]
  generalize m.cols.take c = a at *
  generalize m.cols.drop (c + 1) = b at *
  rw [hsplit] at hap hok
  obtain ⟨p1, p2, p3⟩ := List.pairwise_append.1 hap
  obtain ⟨p4, p5⟩ := List.pairwise_cons.1 p2
  have ha : ∀ t ∈ a, elems arrays' t = elems m.arrays t ∧ Ok arrays' t ∧ Apart t s' := fun t hm => ht t (hok t (by simp [hm])) (p3 t hm s (by simp))
  have hb : ∀ t ∈ b, elems arrays' t = elems m.arrays t ∧ Ok arrays' t ∧ Apart t s' := fun t hm => ht t (hok t (by simp [hm])) (p4 t hm).symm
  refine ⟨⟨?_, ?_⟩, ?_⟩
  · intro t hm
    rcases List.mem_append.1 hm with hm | hm
    · exact (ha t hm).2.1
    · rcases List.mem_cons.1 hm with rfl | hm
      · exact hs
      · exact (hb t hm).2.1
  · refine List.pairwise_append.2 ⟨p1, List.pairwise_cons.2 ⟨fun t hm => (hb t hm).2.2.symm, p5⟩, ?_⟩
    intro t hm u hu
    rcases List.mem_cons.1 hu with rfl | hu
    · exact (ha t hm).2.2
    · exact p3 t hm u (by simp [hu])
  · rw [List.set_append_right _ _ (by simp [hlen])]
    simp only [List.map_append, List.map_cons, List.length_map, hlen, Nat.sub_self, List.set_cons_zero]
    rw [List.map_congr_left fun t hm => (ha t hm).1, List.map_congr_left fun t hm => (hb t hm).1]

theorem slot {arrays : List (List Elem)} {s : Slice} (h : Ok arrays s) {i : Nat} (hi : i < s.len) :
    (elems arrays s)[i]? = some ((((arrays[s.arr]?).getD [])[s.off + i]?).getD none) := by
  have := h.len
  obtain ⟨a, ha, hl⟩ := h.arr (by omega)
  unfold elems
  rw [ha]
  simp only [Option.getD_some]
  rw [List.getElem?_take_of_lt hi, List.getElem?_drop]
  have : s.off + i < a.length := by omega
  simp [List.getElem?_eq_getElem this]

theorem lists_get (m : Mem) (c : Nat) : (lists m)[c]? = (m.cols[c]?).map (elems m.arrays) := by simp [lists]

/-- One call does to the lists what it should. -/
theorem step_ok (spare : Nat → Nat → Nat) {m : Mem} (h : Good m) (op : Op) (ho : ¬ Assigns op) :
    Good (step spare m op).1 ∧ (lists (step spare m op).1, (step spare m op).2) = listStep (lists m) op := by
  cases op with
  | assign c => exact absurd trivial ho
  | make xs =>
    obtain ⟨l1, l2, l3⟩ := literal_ok m.arrays xs
    obtain ⟨g, e⟩ := add_ok h l2 l3
    refine ⟨g, ?_⟩
    simp only [step, listStep, e, l1]
    simp [lists]
  | clone c cl =>
    simp only [step, listStep, lists_get]
    cases hc : m.cols[c]? with
    | none => exact ⟨h, rfl⟩
    | some s =>
      have hs := h.ok s (List.mem_of_getElem? hc)
      obtain ⟨l1, l2, l3⟩ := cloneLoop_ok spare ((elems m.arrays s).map cl) (ok_empty m.arrays)
      obtain ⟨g, e⟩ := add_ok h l2 (fun t ht => l3 t ht (apart_empty t))
      refine ⟨g, ?_⟩
      simp only [clone, Option.map_some, e, l1]
      simp [lists, elems]
  | count c =>
    simp only [step, listStep, lists_get]
    cases hc : m.cols[c]? with
    | none => exact ⟨h, rfl⟩
    | some s => exact ⟨h, by simp [elems_length (h.ok s (List.mem_of_getElem? hc))]⟩
  | get c i =>
    simp only [step, listStep, lists_get]
    cases hc : m.cols[c]? with
    | none => exact ⟨h, rfl⟩
    | some s =>
      have hs := h.ok s (List.mem_of_getElem? hc)
      have hl := elems_length hs
      refine ⟨h, ?_⟩
      simp only [Option.map_some, get]
      by_cases h0 : i < 0
      · rw [if_pos (Or.inl h0), if_pos h0]
      · rw [if_neg h0]
        by_cases h1 : (s.len : Int) ≤ i
        · rw [if_pos (Or.inr h1), List.getElem?_eq_none (by omega)]
        · rw [if_neg (by omega), slot hs (i := i.toNat) (by omega)]
  | push c d =>
    simp only [step, listStep]
    cases hc : m.cols[c]? with
    | none => exact ⟨h, by rw [List.modify_eq_self]; simpa [lists] using hc⟩
    | some s =>
      have hs := h.ok s (List.mem_of_getElem? hc)
      obtain ⟨l1, l2, l3⟩ := append_ok spare hs [d]
      obtain ⟨g, e⟩ := set_ok h hc l2 l3
      refine ⟨g, ?_⟩
      have hc' : (lists m)[c]? = some (elems m.arrays s) := by rw [lists_get, hc]; rfl
      simp only [push, e, l1, List.modify_eq_set, hc', Option.map_some, Option.getD_some]
  | unshift c d =>
    simp only [step, listStep]
    cases hc : m.cols[c]? with
    | none => exact ⟨h, by rw [List.modify_eq_self]; simpa [lists] using hc⟩
    | some s =>
      have hs := h.ok s (List.mem_of_getElem? hc)
      obtain ⟨k1, k2, k3⟩ := literal_ok m.arrays [d]
      obtain ⟨l1, l2, l3⟩ := append_ok spare k2 (elems (literal m.arrays [d]).1 s)
      obtain ⟨g, e⟩ := set_ok h hc l2 (fun t ht _ => by
        obtain ⟨x1, x2, x3⟩ := k3 t ht
        obtain ⟨y1, y2, y3⟩ := l3 t x2 x3
        exact ⟨y1.trans x1, y2, y3⟩)
      refine ⟨g, ?_⟩
      have hc' : (lists m)[c]? = some (elems m.arrays s) := by rw [lists_get, hc]; rfl
      simp only [unshift, e, l1, k1, List.modify_eq_set, hc', Option.map_some, Option.getD_some, List.singleton_append]
      rw [(k3 s hs).1]
  | shift c =>
    simp only [step, listStep, lists_get]
    cases hc : m.cols[c]? with
    | none => exact ⟨h, rfl⟩
    | some s =>
      have hs := h.ok s (List.mem_of_getElem? hc)
      have hl := elems_length hs
      simp only [Option.map_some, shift]
      by_cases h0 : s.len = 0
      · rw [if_pos h0]
        rw [h0] at hl
        rw [List.eq_nil_of_length_eq_zero hl]
        exact ⟨h, rfl⟩
      · rw [if_neg h0]
        have hcap := hs.len
        have hx := slot hs (i := 0) (by omega)
        cases he : elems m.arrays s with
        | nil => rw [he] at hl; simp at hl; omega
        | cons d l =>
          rw [he] at hx
          simp at hx
          have hs' : Ok m.arrays ⟨s.arr, s.off + 1, s.len - 1, s.cap - 1⟩ := ⟨by dsimp only; omega, fun hp => by
            dsimp only at hp
            obtain ⟨a, ha, hl⟩ := hs.arr (by omega)
            exact ⟨a, ha, by dsimp only; omega⟩⟩
          obtain ⟨g, e⟩ := set_ok h hc hs' (fun t ht hap => ⟨rfl, ht, fun x y => by dsimp only at y; exact hap x (by omega)⟩)
          refine ⟨g, ?_⟩
          have htail : elems m.arrays ⟨s.arr, s.off + 1, s.len - 1, s.cap - 1⟩ = l := by
            have : l = (elems m.arrays s).drop 1 := by rw [he]; rfl
            rw [this]
            unfold elems
            dsimp only
            rw [List.drop_take, List.drop_drop]
          rw [e, htail]
          simp only [hx]
  | pop c =>
    simp only [step, listStep, lists_get]
    cases hc : m.cols[c]? with
    | none => exact ⟨h, rfl⟩
    | some s =>
      have hs := h.ok s (List.mem_of_getElem? hc)
      have hl := elems_length hs
      simp only [Option.map_some, pop]
      by_cases h0 : s.len = 0
      · rw [if_pos h0]
        rw [h0] at hl
        rw [List.eq_nil_of_length_eq_zero hl]
        exact ⟨h, rfl⟩
      · rw [if_neg h0]
        have hcap := hs.len
        have hx := slot hs (i := s.len - 1) (by omega)
        have hlast : (elems m.arrays s).getLast? = (elems m.arrays s)[s.len - 1]? := by rw [List.getLast?_eq_getElem?, hl]
        rw [hlast, hx]
        dsimp only
        have hs' : Ok m.arrays ⟨s.arr, s.off, s.len - 1, s.cap⟩ := ⟨by dsimp only; omega, hs.arr⟩
        obtain ⟨g, e⟩ := set_ok h hc hs' (fun t ht hap => ⟨rfl, ht, hap⟩)
        refine ⟨g, ?_⟩
        have hd : elems m.arrays ⟨s.arr, s.off, s.len - 1, s.cap⟩ = (elems m.arrays s).dropLast := by
          rw [List.dropLast_eq_take, hl]
          unfold elems
          dsimp only
          rw [List.take_take, Nat.min_eq_left (by omega)]
        rw [e, hd]

theorem run_ok (spare : Nat → Nat → Nat) : ∀ (h : List Op) {m : Mem}, Good m → (∀ op ∈ h, ¬ Assigns op) →
    Good (run spare m h).1 ∧ (lists (run spare m h).1, (run spare m h).2) = listRun (lists m) h
  | [], _, hg, _ => ⟨hg, rfl⟩
  | op :: h, m, hg, ho => by
    obtain ⟨g1, e1⟩ := step_ok spare hg op (ho op (by simp))
    obtain ⟨g2, e2⟩ := run_ok spare h g1 (fun o hm => ho o (by simp [hm]))
    refine ⟨g2, ?_⟩
    simp only [run, listRun, ← e1, ← e2]

theorem good_start : Good ⟨[], []⟩ := ⟨fun _ h => by simp at h, List.Pairwise.nil⟩

theorem run_append (spare : Nat → Nat → Nat) : ∀ (h h' : List Op) (m : Mem),
    run spare m (h ++ h') = ((run spare (run spare m h).1 h').1, (run spare m h).2 ++ (run spare (run spare m h).1 h').2)
  | [], _, _ => rfl
  | op :: h, h', m => by simp only [List.cons_append, run, run_append spare h h']

theorem listStep_other {ls : List (List Elem)} {c : Nat} {op : Op} (h : changes op ≠ some c) (hc : c < ls.length) :
    (listStep ls op).1[c]? = ls[c]? ∧ c < (listStep ls op).1.length := by
  cases op with
  | make xs => exact ⟨List.getElem?_append_left hc, by simp [listStep]; omega⟩
  | unshift k d =>
    have : k ≠ c := fun e => h (by rw [e]; rfl)
    simp [listStep, List.getElem?_modify, this, hc]
  | push k d =>
    have : k ≠ c := fun e => h (by rw [e]; rfl)
    simp [listStep, List.getElem?_modify, this, hc]
  | shift k =>
    have : k ≠ c := fun e => h (by rw [e]; rfl)
    simp only [listStep]
    split
    · exact ⟨rfl, hc⟩
    · exact ⟨rfl, hc⟩
    · simp [List.getElem?_set, this, hc]
  | pop k =>
    have : k ≠ c := fun e => h (by rw [e]; rfl)
    simp only [listStep]
    split
    · exact ⟨rfl, hc⟩
    · split
      · exact ⟨rfl, hc⟩
      · simp [List.getElem?_set, this, hc]
  | count k => simp only [listStep]; split <;> exact ⟨rfl, hc⟩
  | get k i => simp only [listStep]; split <;> exact ⟨rfl, hc⟩
  | clone k cl =>
    simp only [listStep]
    split
    · exact ⟨rfl, hc⟩
    · exact ⟨List.getElem?_append_left hc, by simp; omega⟩
  | assign k =>
    simp only [listStep]
    split
    · exact ⟨rfl, hc⟩
    · exact ⟨List.getElem?_append_left hc, by simp; omega⟩

theorem listRun_other : ∀ (h : List Op) {ls : List (List Elem)} {c : Nat}, (∀ op ∈ h, changes op ≠ some c) → c < ls.length →
    (listRun ls h).1[c]? = ls[c]?
  | [], _, _, _, _ => rfl
  | op :: h, ls, c, ho, hc => by
    obtain ⟨h1, h2⟩ := listStep_other (ho op (by simp)) hc
    simp only [listRun]
    rw [listRun_other h (fun o hm => ho o (by simp [hm])) h2, h1]

end Xcore.Slices
