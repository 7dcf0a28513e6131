import Verif.Proof.V1.Dataset
import Verif.Proof.DatasetConv

/-!
# Properties C70–C72: datasets and collections of version 1
-/

namespace Xcore.V1.Dataset

open Xcore.Dataset (Val IntKind SliceKind Ext QOp QOut QStep QRun IsFalse ToInt Prints GoPrints f64Scaled SameNumber Nearest OfKind)

/-- A memory used in the examples: 0 is a dataset with a number, a sub-dataset 1, a collection 3 with the element 2, nil and a time. -/
def sample : Heap :=
  [.ds [(b!"n", .int .int 7), (b!"d", .ptr 1), (b!"c", .ptr 3), (b!"n>x", .str b!"lit"), (b!"z", .nil), (b!"t", .time 0)],
   .ds [(b!"s", .str b!"v")],
   .ds [(b!"k", .bool true)],
   .col [some 2]]

/-- Some runtime, for the examples. -/
def someExt : Ext := ⟨fun _ => b!"f", fun _ => b!"g", fun _ => b!"t", fun _ => b!"o", fun _ => b!"#", fun _ _ => b!"[]", fun _ => 0⟩

/-- A program builds the sample. -/
theorem sample_reachable : Reachable sample := by
  have d : ∀ {h : Heap} {a : Nat} {m : AMap Val}, h[a]? = some (.ds m) → IsDataset h a := fun e => ⟨_, e⟩
  have r1 := Reachable.call .newDataset (.call .newDataset (.call .newDataset .start trivial) trivial) trivial
  have r2 := Reachable.call .newCollection r1 trivial
  have r3 := Reachable.call (.push 3 (some 2)) r2 ⟨⟨_, rfl⟩, fun a e => by cases e; exact d rfl⟩
  have r4 := Reachable.call (.set 2 b!"k" (.bool true)) r3 ⟨d rfl, trivial⟩
  have r5 := Reachable.call (.set 1 b!"s" (.str b!"v")) r4 ⟨d rfl, trivial⟩
  have r6 := Reachable.call (.set 0 b!"n" (.int .int 7)) r5 ⟨d rfl, by simp [Valid, OfKind]⟩
  have r7 := Reachable.call (.set 0 b!"d" (.ptr 1)) r6 ⟨d rfl, by unfold Valid; decide⟩
  have r8 := Reachable.call (.set 0 b!"c" (.ptr 3)) r7 ⟨d rfl, by unfold Valid; decide⟩
  have r9 := Reachable.call (.set 0 b!"n>x" (.str b!"lit")) r8 ⟨d rfl, trivial⟩
  have r10 := Reachable.call (.set 0 b!"z" .nil) r9 ⟨d rfl, trivial⟩
  have r11 := Reachable.call (.set 0 b!"t" (.time 0)) r10 ⟨d rfl, trivial⟩
  exact r11

/-! ## C70: reading -/

/-- **C70** Version 1: `Get(path)` answers a value exactly if the path leads to it; it never panics (there is no such outcome). -/
theorem C70_get_follows_path {h : Heap} (wf : WF h) {a : Nat} (hd : IsDataset h a) (key : Str) (v : Val) :
    get h a key = some v ↔ Leads h a (split 62 key) v := by
  have g := get_up wf hd key
  rw [← leads_up]
  constructor
  · intro e; rw [e] at g; exact Xcore.Dataset.getSegs_leads g
  · intro l
    have := Xcore.Dataset.leads_getSegs (wf_up.2 wf) l
    have g' : Xcore.Dataset.getSegs (up h) a (split 62 key) = .ok (get h a key) := g
    rw [g'] at this
    exact Res.ok.inj this

/-- **C70** Version 1: `GetBool` reports absence exactly if `Get` does or the value is nil; otherwise it is false exactly for false and the
zeros of the number types. -/
theorem C70_getBool (h : Heap) (a : Nat) (key : Str) :
    (getBool h a key = none ↔ get h a key = none ∨ get h a key = some .nil) ∧
    (getBool h a key = some false ↔ ∃ v, get h a key = some v ∧ IsFalse v ∧ v ≠ .nil ∧ ∀ ns, v ≠ .time ns) := by
  unfold getBool
  cases get h a key with
  | none => simp
  | some v =>
    simp only [Option.bind_some, Option.some.injEq, reduceCtorEq, false_or, exists_eq_left']
    rw [← Xcore.Dataset.toBool_iff]
    cases v <;> simp [toBool, Xcore.Dataset.toBool]

/-- **C70** Version 1: `GetInt` answers exactly for bools and numbers, with the documented conversion; not for times. -/
theorem C70_getInt (x : Ext) (h : Heap) (a : Nat) (key : Str) :
    (getInt x h a key = none ↔ get h a key = none ∨ ∃ v, get h a key = some v ∧ ¬ IsNumber v) ∧
    (∀ v n, get h a key = some v → IsNumber v → ToInt v n → getInt x h a key = some n) := by
  unfold getInt
  constructor
  · cases get h a key with
    | none => simp
    | some v =>
      simp only [Option.bind_some, reduceCtorEq, Option.some.injEq, exists_eq_left', false_or]
      cases v with
      | int k n => cases k <;> simp [toInt, IsNumber]
      | _ => simp [toInt, IsNumber]
  · intro v n e hn ht
    rw [e, Option.bind_some]
    have := Xcore.Dataset.toInt_of (x := x) ht
    cases v with
    | int k i => cases k <;> exact this
    | bool b => exact this
    | f32 b => exact this
    | f64 b => exact this
    | _ => exact hn.elim

/-- **C70** Version 1: an integer above the range of int wraps around. -/
theorem C70_getInt_of_large_unsigned (x : Ext) (h : Heap) (a : Nat) (key : Str) {k : IntKind} {n : Int} (hk : k = .uint ∨ k = .uint64)
    (hn : 2 ^ 63 ≤ n ∧ n < 2 ^ 64) (e : get h a key = some (.int k n)) : getInt x h a key = some (n - 2 ^ 64) := by
  unfold getInt
  rw [e]
  rcases hk with rfl | rfl <;> simp [toInt, Xcore.Dataset.wrap64] <;> omega

/-- **C70** Version 1: `GetFloat` answers exactly for bools and numbers, not for times: a float64 as it is, a float32 as the same number, an integer as the
nearest float64. -/
theorem C70_getFloat (h : Heap) (a : Nat) (key : Str) :
    (getFloat h a key = none ↔ get h a key = none ∨ ∃ v, get h a key = some v ∧ ¬ IsNumber v) ∧
    (∀ b, get h a key = some (.f64 b) → getFloat h a key = some b) ∧
    (∀ b, get h a key = some (.f32 b) → ∃ f, getFloat h a key = some f ∧ SameNumber b f) ∧
    (∀ k n, get h a key = some (.int k n) → OfKind k n → ∃ f, getFloat h a key = some f ∧ Nearest n f) ∧
    (get h a key = some (.bool true) → ∃ f, getFloat h a key = some f ∧ f64Scaled f = 2 ^ 1074) ∧
    (get h a key = some (.bool false) → getFloat h a key = some 0) := by
  unfold getFloat
  refine ⟨?_, ?_, ?_, ?_, ?_, ?_⟩
  · cases get h a key with
    | none => simp
    | some v =>
      simp only [Option.bind_some, reduceCtorEq, Option.some.injEq, exists_eq_left', false_or]
      cases v <;> simp [toFloat, IsNumber]
  · intro b e; rw [e]; rfl
  · intro b e; rw [e]; exact ⟨_, rfl, Xcore.Dataset.f32to64_same b⟩
  · intro k n e hk; rw [e]; exact ⟨_, rfl, (Xcore.Dataset.intToF64_nearest hk.natAbs_lt).1⟩
  · intro e; rw [e]
    refine ⟨_, rfl, ?_⟩
    have h1 : (0x3FF0000000000000 : UInt64).toNat / 2 ^ 52 % 2 ^ 11 = 1023 := by decide
    have h2 : (0x3FF0000000000000 : UInt64).toNat % 2 ^ 52 = 0 := by decide
    have h3 : ¬ (0x3FF0000000000000 : UInt64).toNat / 2 ^ 63 = 1 := by decide
    unfold f64Scaled
    simp only [if_true, h1, h2, h3, if_false]
    rw [if_neg (by decide)]
    decide +kernel
  · intro e; rw [e]; rfl

/-- **C70** Version 1: the getters without conversion answer exactly for their own type. -/
theorem C70_exact_type_getters (h : Heap) (a : Nat) (key : Str) :
    (∀ ns, getTime h a key = some ns ↔ get h a key = some (.time ns)) ∧
    (∀ k b, getSlice k h a key = some b ↔ get h a key = some (.slice k b)) ∧
    (∀ b, getDataset h a key = some b ↔ get h a key = some (.ptr b) ∧ IsDataset h b) ∧
    (∀ c, getCollection h a key = some c ↔ get h a key = some (.ptr c) ∧ ∃ l, IsCollection h c l) := by
  unfold getTime getSlice getDataset getCollection
  cases get h a key with
  | none => simp
  | some v =>
    simp only [Option.bind_some, Option.some.injEq]
    refine ⟨fun ns => ?_, fun k b => ?_, fun b => ?_, fun c => ?_⟩
    · cases v <;> simp [asTime]
    · cases v with
      | slice k' b' =>
        simp only [asSlice, Val.slice.injEq]
        by_cases hk : k' = k <;> simp [hk]
      | _ => simp [asSlice]
    · rw [← asDataset_up, Xcore.Dataset.asDataset_some, isDataset_up]
    · exact asCollection_iff

/-- **C70** Version 1: `GetString` is the empty string for nil and otherwise what `fmt` prints; strings, integers and bools print as usual. -/
theorem C70_getString (x : Ext) (n : Nat) (h : Heap) (a : Nat) (key : Str) :
    (getString x n h a key = .ok none ↔ get h a key = none) ∧
    (get h a key = some .nil → getString x n h a key = .ok (some [])) ∧
    (∀ v s, get h a key = some v → v ≠ .nil → Prints x n (up h) v s → getString x n h a key = .ok (some s)) ∧
    (∀ s, get h a key = some (.str s) → getString x (n + 1) h a key = .ok (some s)) ∧
    (∀ k i, get h a key = some (.int k i) → getString x (n + 1) h a key = .ok (some (itoa i))) ∧
    (get h a key = some (.bool true) → getString x (n + 1) h a key = .ok (some b!"true")) ∧
    (get h a key = some (.bool false) → getString x (n + 1) h a key = .ok (some b!"false")) := by
  unfold getString
  refine ⟨?_, ?_, ?_, ?_, ?_, ?_, ?_⟩
  · cases get h a key with
    | none => simp
    | some v =>
      cases v <;> simp only [reduceCtorEq, iff_false, Res.ok.injEq] <;>
        (intro e; obtain ⟨b, _, e2⟩ := Xcore.Dataset.map_ok.1 e; cases e2)
  · intro e; rw [e]
  · intro v s e hv hp
    rw [Xcore.Dataset.prints_iff, sprint_up] at hp
    rw [e]
    cases v with
    | nil => exact absurd rfl hv
    | _ => simp only [hp]; rfl
  · intro s e; rw [e]; rfl
  · intro k i e; rw [e]; rfl
  · intro e; rw [e]; rfl
  · intro e; rw [e]; rfl

/-- **C70** Version 1: whatever order the runtime iterates in, `String` and `GoString` give one text, the same as in version 2; for acyclic data
they end. -/
theorem C70_printing (x : Ext) {h : Heap} (wf : WF h) {a : Nat} (ha : a < h.length) (hac : Acyclic h a) :
    ∃ n s g, sprint x n h (.ptr a) = some s ∧ goSprint x n h (.ptr a) = some g ∧
      (∀ n' s', Prints x n' (up h) (.ptr a) s' → s' = s) ∧ (∀ n' g', GoPrints x n' (up h) (.ptr a) g' → g' = g) := by
  obtain ⟨⟨s, e1⟩, ⟨g, e2⟩⟩ := sprint_ends x wf ha hac (Nat.lt_succ_self (2 * h.length))
  refine ⟨_, s, g, e1, e2, ?_, ?_⟩
  · intro n' s' p
    rw [Xcore.Dataset.prints_iff] at p
    rw [← sprint_up] at e1
    have h1 := Xcore.Dataset.sprint_le (Nat.le_max_left n' (2 * h.length + 1)) p
    have h2 := Xcore.Dataset.sprint_le (Nat.le_max_right n' (2 * h.length + 1)) e1
    exact Option.some.inj (h1.symm.trans h2)
  · intro n' g' p
    rw [Xcore.Dataset.goPrints_iff] at p
    rw [← goSprint_up] at e2
    have h1 := Xcore.Dataset.goSprint_le (Nat.le_max_left n' (2 * h.length + 1)) p
    have h2 := Xcore.Dataset.goSprint_le (Nat.le_max_right n' (2 * h.length + 1)) e2
    exact Option.some.inj (h1.symm.trans h2)

/-- **C70** On the same data, these calls answer the same in both versions. -/
theorem C70_same_reads_as_version2 (x : Ext) (n : Nat) {h : Heap} (wf : WF h) {a : Nat} (hd : IsDataset h a) (key : Str) (k : SliceKind) :
    Xcore.Dataset.get (up h) a key = .ok (get h a key) ∧
    Xcore.Dataset.getDataset (up h) a key = .ok (getDataset h a key) ∧
    Xcore.Dataset.getCollection (up h) a key = .ok (getCollection h a key) ∧
    Xcore.Dataset.getString x n (up h) a key = getString x n h a key ∧
    Xcore.Dataset.getTime (up h) a key = .ok (getTime h a key) ∧
    Xcore.Dataset.getSlice k (up h) a key = .ok (getSlice k h a key) :=
  ⟨get_up wf hd key, getDataset_up wf hd key, getCollection_up wf hd key, getString_up x n wf hd key, getTime_up wf hd key, getSlice_up wf hd k key⟩

/-- **C70** On the same data, `GetBool` answers the same in both versions except for nil and the zero time, `GetInt` and `GetFloat` except for
times. -/
theorem C70_conversions_that_differ (x : Ext) {h : Heap} (wf : WF h) {a : Nat} (hd : IsDataset h a) (key : Str) :
    (Xcore.Dataset.getBool (up h) a key ≠ .ok (getBool h a key) ↔ get h a key = some .nil ∨ get h a key = some (.time 0)) ∧
    (Xcore.Dataset.getInt x (up h) a key ≠ .ok (getInt x h a key) ↔ ∃ ns, get h a key = some (.time ns)) ∧
    (Xcore.Dataset.getFloat (up h) a key ≠ .ok (getFloat h a key) ↔ ∃ ns, get h a key = some (.time ns)) := by
  unfold Xcore.Dataset.getBool Xcore.Dataset.getInt Xcore.Dataset.getFloat getBool getInt getFloat
  rw [get_up wf hd]
  cases get h a key with
  | none => simp [Res.map]
  | some v =>
    simp only [Res.map, Option.map_some, Option.bind_some, ne_eq, Res.ok.injEq, Option.some.injEq]
    cases v with
    | int k n => cases k <;> simp [toBool, Xcore.Dataset.toBool, toInt, Xcore.Dataset.toInt, toFloat, Xcore.Dataset.toFloat]
    | time ns => simp [toBool, Xcore.Dataset.toBool, toInt, Xcore.Dataset.toInt, toFloat, Xcore.Dataset.toFloat]
    | _ => simp [toBool, Xcore.Dataset.toBool, toInt, Xcore.Dataset.toInt, toFloat, Xcore.Dataset.toFloat]

/-- Non-vacuity: deep and literal paths; nil and the zero time. -/
example : Reachable sample ∧ IsDataset sample 0 ∧ get sample 0 b!"c>0>k" = some (.bool true) ∧ get sample 0 b!"n>x" = some (.str b!"lit") ∧
    get sample 0 b!"c>1>k" = none ∧ getBool sample 0 b!"z" = none ∧ getBool sample 0 b!"t" = some true ∧
    getInt someExt sample 0 b!"t" = none ∧ getInt someExt sample 0 b!"n" = some 7 ∧
    Xcore.Dataset.getBool (up sample) 0 b!"z" = .ok (some false) ∧ Xcore.Dataset.getBool (up sample) 0 b!"t" = .ok (some false) ∧
    sprint someExt 9 sample (.ptr 3) = some b!"XDatasetCollection[0:xcore.XDataset{k:true} ]" :=
  ⟨sample_reachable, ⟨_, rfl⟩, by decide⟩

/-! ## C71: writing -/

/-- **C71** Version 1: every memory a program can build is well formed. -/
theorem C71_reachable_heaps_are_well_formed {h : Heap} (r : Reachable h) : WF h := reachable_wf r

/-- **C71** Version 1: after `Set(key, v)` with a key without `>`, `Get(key)` answers `v`; every other key without `>`, and every other dataset,
answers as before; nothing but the dataset changes. -/
theorem C71_get_after_set {h : Heap} {a : Nat} (hd : IsDataset h a) {key : Str} (hk : 62 ∉ key) (v : Val) :
    get (set h a key v) a key = some v ∧
    (∀ b k, 62 ∉ k → b ≠ a ∨ k ≠ key → get (set h a key v) b k = get h b k) ∧
    (∀ b : Nat, b ≠ a → (set h a key v)[b]? = h[b]?) := by
  refine ⟨?_, ?_, ?_⟩
  · rw [get_key hk, set, entries_write hd, if_pos rfl, AMap.get_set_self]
  · intro b k hk' hor
    rw [get_key hk', get_key hk', set, entries_write hd]
    by_cases e : b = a
    · subst e
      rw [if_pos rfl]
      exact AMap.get_set_ne _ _ (hor.resolve_left fun q => q rfl)
    · rw [if_neg e]
  · intro b hb; rw [set, List.getElem?_set, if_neg (Ne.symm hb)]

/-- **C71** Version 1: after `Del(key)` with a key without `>`, `Get(key)` reports absence; nothing else changes. -/
theorem C71_get_after_del {h : Heap} {a : Nat} (hd : IsDataset h a) {key : Str} (hk : 62 ∉ key) :
    get (del h a key) a key = none ∧
    (∀ b k, 62 ∉ k → b ≠ a ∨ k ≠ key → get (del h a key) b k = get h b k) ∧
    (∀ b : Nat, b ≠ a → (del h a key)[b]? = h[b]?) := by
  refine ⟨?_, ?_, ?_⟩
  · rw [get_key hk, del, entries_write hd, if_pos rfl, AMap.get_del_self]
  · intro b k hk' hor
    rw [get_key hk', get_key hk', del, entries_write hd]
    by_cases e : b = a
    · subst e
      rw [if_pos rfl]
      exact AMap.get_del_ne _ (hor.resolve_left fun q => q rfl)
    · rw [if_neg e]
  · intro b hb; rw [del, List.getElem?_set, if_neg (Ne.symm hb)]

/-- **C71** Version 1: any sequence of Push, Pop, Shift, Unshift, Count and Get calls on a collection answers as the same calls on a sequence
and changes nothing but the collection. -/
theorem C71_collection_is_a_sequence {h : Heap} {c : Nat} {l : List (Option Nat)} (hc : IsCollection h c l) (ops : List QOp) :
    ∃ l', QRun l (execAll h c ops).2 l' ∧ IsCollection (execAll h c ops).1 c l' ∧
      ∀ b : Nat, b ≠ c → (execAll h c ops).1[b]? = h[b]? := by
  induction ops generalizing h l with
  | nil => exact ⟨l, .nil, hc, fun _ _ => rfl⟩
  | cons op ops ih =>
    obtain ⟨l', h1, h2, h3⟩ := exec_step hc op
    obtain ⟨l'', h4, h5, h6⟩ := ih h2
    exact ⟨l'', .cons h1 h4, h5, fun b hb => (h6 b hb).trans (h3 b hb)⟩

/-- **C71** Version 1: Pop and Shift panic exactly on an empty collection. -/
theorem C71_pop_and_shift_panic_exactly_when_empty {h : Heap} {c : Nat} {l : List (Option Nat)} (hc : IsCollection h c l) :
    (pop h c = .panic ↔ l = []) ∧ (shift h c = .panic ↔ l = []) := by
  have he : elems h c = l := by
    unfold IsCollection at hc
    simp only [elems, hc]
  unfold pop shift
  rw [he]
  constructor
  · rcases List.eq_nil_or_concat l with rfl | ⟨l', d, rfl⟩
    · simp
    · simp [List.getLast?_concat]
  · cases l <;> simp

/-- **C71** Version 1: `GetData(key)` on a collection answers `v` exactly if some element answers `v` and all elements after it report absence;
it reports absence exactly if all elements do; it panics exactly if it meets a nil element before an answer. -/
theorem C71_last_dataset_wins {h : Heap} {c : Nat} {l : List (Option Nat)} (hc : IsCollection h c l) (key : Str) :
    (∀ v, getData h c key = .ok (some v) ↔ ∃ pre a post, l = pre ++ [some a] ++ post ∧ get h a key = some v ∧
      ∀ d ∈ post, ∃ b, d = some b ∧ get h b key = none) ∧
    (getData h c key = .ok none ↔ ∀ d ∈ l, ∃ b, d = some b ∧ get h b key = none) ∧
    (getData h c key = .panic ↔ ∃ pre post, l = pre ++ [none] ++ post ∧ ∀ d ∈ post, ∃ b, d = some b ∧ get h b key = none) := by
  have found : ∀ v pre a post, l = pre ++ [some a] ++ post → get h a key = some v →
      (∀ d ∈ post, ∃ b, d = some b ∧ get h b key = none) → getData h c key = .ok (some v) := by
    intro v pre a post e1 e2 e3
    unfold getData
    rw [elems_eq hc, e1]
    simp only [List.reverse_append, List.reverse_cons, List.reverse_nil, List.nil_append]
    rw [getDataL_skip (fun d hd => e3 d (List.mem_reverse.1 hd))]
    simp [getDataL, e2]
  have absent : (∀ d ∈ l, ∃ b, d = some b ∧ get h b key = none) → getData h c key = .ok none := by
    intro q
    unfold getData
    rw [elems_eq hc]
    exact getDataL_none fun d hd => q d (List.mem_reverse.1 hd)
  have panics : ∀ pre post, l = pre ++ [none] ++ post → (∀ d ∈ post, ∃ b, d = some b ∧ get h b key = none) → getData h c key = .panic := by
    intro pre post e1 e3
    unfold getData
    rw [elems_eq hc, e1]
    simp only [List.reverse_append, List.reverse_cons, List.reverse_nil, List.nil_append]
    rw [getDataL_skip (fun d hd => e3 d (List.mem_reverse.1 hd))]
    simp [getDataL]
  have all : (∀ d ∈ l, ∃ b, d = some b ∧ get h b key = none) ∨
      ∃ pre d post, l = pre ++ [d] ++ post ∧ (∀ d ∈ post, ∃ b, d = some b ∧ get h b key = none) ∧ (d = none ∨ ∃ a v, d = some a ∧ get h a key = some v) := by
    rcases getDataL_cases h key l.reverse with q | ⟨post, d, pre, e, hp, hd⟩
    · exact Or.inl fun d hd => q d (List.mem_reverse.2 hd)
    · refine Or.inr ⟨pre.reverse, d, post.reverse, ?_, fun d hd => hp d (List.mem_reverse.1 hd), hd⟩
      have := congrArg List.reverse e
      simpa using this
  rcases all with q | ⟨pre, d, post, e, hp, hd⟩
  · have g := absent q
    refine ⟨fun v => ⟨fun e => ?_, fun ⟨pre, a, post, e1, e2, e3⟩ => found v pre a post e1 e2 e3⟩, ⟨fun _ => q, absent⟩,
      ⟨fun e => ?_, fun ⟨pre, post, e1, e2⟩ => panics pre post e1 e2⟩⟩
    · rw [g] at e; cases e
    · rw [g] at e; cases e
  · rcases hd with rfl | ⟨a, v, rfl, ev⟩
    · have g := panics pre post e hp
      refine ⟨fun v => ⟨fun e => ?_, fun ⟨pre, a, post, e1, e2, e3⟩ => found v pre a post e1 e2 e3⟩, ⟨fun e => ?_, absent⟩,
        ⟨fun _ => ⟨pre, post, e, hp⟩, fun ⟨pre, post, e1, e2⟩ => panics pre post e1 e2⟩⟩
      · rw [g] at e; cases e
      · rw [g] at e; cases e
    · have g := found v pre a post e ev hp
      refine ⟨fun w => ⟨fun e' => ?_, fun ⟨pre, a, post, e1, e2, e3⟩ => found w pre a post e1 e2 e3⟩, ⟨fun e => ?_, absent⟩,
        ⟨fun e => ?_, fun ⟨pre, post, e1, e2⟩ => panics pre post e1 e2⟩⟩
      · rw [g] at e'; cases e'; exact ⟨pre, a, post, e, ev, hp⟩
      · rw [g] at e; cases e
      · rw [g] at e; cases e

/-- **C71** Version 1: the typed lookups of a collection answer exactly for their own type; `GetCollection` panics exactly if the value found is
no collection. -/
theorem C71_typed_lookups (x : Ext) (n : Nat) {h : Heap} {c : Nat} {key : Str} {r : Option Val} (e : getData h c key = .ok r) :
    (∀ b, getDataBool h c key = .ok (some b) ↔ r = some (.bool b)) ∧
    (∀ i, getDataInt h c key = .ok (some i) ↔ r = some (.int .int i)) ∧
    (∀ f, getDataFloat h c key = .ok (some f) ↔ r = some (.f64 f)) ∧
    (∀ ns, getDataTime h c key = .ok (some ns) ↔ r = some (.time ns)) ∧
    (∀ d, getDataCollection h c key = .ok (some d) ↔ r = some (.ptr d) ∧ ∃ l, IsCollection h d l) ∧
    (getDataCollection h c key = .panic ↔ ∃ v, r = some v ∧ ∀ d l, v = .ptr d → ¬ IsCollection h d l) ∧
    (getDataCollection h c key = .ok none ↔ r = none) ∧
    (getDataString x n h c key = .ok none ↔ r = none) ∧
    (r = some .nil → getDataString x n h c key = .ok (some [])) ∧
    (∀ v s, r = some v → v ≠ .nil → sprint x n h v = some s → getDataString x n h c key = .ok (some s)) := by
  have ac : ∀ v d, asCollection h v = some d ↔ v = .ptr d ∧ ∃ l, IsCollection h d l := fun _ _ => asCollection_iff
  unfold getDataBool getDataInt getDataFloat getDataTime getDataCollection getDataString
  rw [e]
  simp only [Res.map, Res.bind, Res.ok.injEq]
  refine ⟨?_, ?_, ?_, ?_, ?_, ?_, ?_, ?_, ?_, ?_⟩
  · intro b
    cases r with
    | none => simp
    | some v => cases v <;> simp
  · intro i
    cases r with
    | none => simp
    | some v => cases v with
      | int k m => cases k <;> simp
      | _ => simp
  · intro f
    cases r with
    | none => simp
    | some v => cases v <;> simp
  · intro ns
    cases r with
    | none => simp
    | some v => cases v <;> simp
  · intro d
    cases r with
    | none => simp
    | some v =>
      simp only [Option.some.injEq]
      rw [← ac]
      cases asCollection h v <;> simp
  · cases r with
    | none => simp
    | some v =>
      simp only [Option.some.injEq, exists_eq_left']
      cases q : asCollection h v with
      | none =>
        simp only [true_iff]
        intro d l e1 hl
        rw [(ac v d).2 ⟨e1, l, hl⟩] at q; cases q
      | some d =>
        obtain ⟨e1, l, hl⟩ := (ac v d).1 q
        simp only [reduceCtorEq, false_iff]
        intro q; exact q d l e1 hl
  · cases r with
    | none => simp
    | some v =>
      dsimp only
      cases asCollection h v <;> simp
  · cases r with
    | none => simp
    | some v =>
      cases v <;> simp only [reduceCtorEq, iff_false, Res.ok.injEq] <;>
        (intro e; obtain ⟨b, _, e2⟩ := Xcore.Dataset.map_ok.1 e; cases e2)
  · rintro rfl; rfl
  · rintro v s rfl hv hp
    cases v with
    | nil => exact absurd rfl hv
    | _ => simp only [hp]; rfl

/-- **C71** The lookups of a collection are those of version 2; `GetCollection` is that of the thread-safe collections there. -/
theorem C71_lookups_as_version2 (x : Ext) (n : Nat) {h : Heap} (wf : WF h) (c : Nat) (i : Int) (key : Str) :
    Xcore.Dataset.count (up h) c = count h c ∧ Xcore.Dataset.colGetAt (up h) c i = colGetAt h c i ∧
    Xcore.Dataset.getData (up h) c key = getData h c key ∧
    Xcore.Dataset.getDataString x n (up h) c key = getDataString x n h c key ∧
    Xcore.Dataset.getDataBool (up h) c key = getDataBool h c key ∧ Xcore.Dataset.getDataInt (up h) c key = getDataInt h c key ∧
    Xcore.Dataset.getDataFloat (up h) c key = getDataFloat h c key ∧ Xcore.Dataset.getDataTime (up h) c key = getDataTime h c key ∧
    Xcore.Dataset.getDataCollectionTS (up h) c key = getDataCollection h c key := by
  refine ⟨?_, colGetAt_up h c i, getData_up wf c key, getDataString_up x n wf c key, ?_, ?_, ?_, ?_, ?_⟩
  · simp only [Xcore.Dataset.count, count, elems_up]
  · unfold Xcore.Dataset.getDataBool getDataBool; rw [getData_up wf]; all_goals rfl
  · unfold Xcore.Dataset.getDataInt getDataInt; rw [getData_up wf]; all_goals rfl
  · unfold Xcore.Dataset.getDataFloat getDataFloat; rw [getData_up wf]; all_goals rfl
  · unfold Xcore.Dataset.getDataTime getDataTime; rw [getData_up wf]; all_goals rfl
  · unfold Xcore.Dataset.getDataCollectionTS getDataCollection
    rw [getData_up wf]
    simp only [asCollection_up]
    all_goals rfl

/-- **C71** A program does the same in both versions: from the same memory, the same calls are legal and lead to the same memory. -/
theorem C71_same_history_as_version2 :
    (∀ h, Reachable h → Xcore.Dataset.Reachable (up h)) ∧
    (∀ (h : Heap) (c : Call), (c.up.Legal (up h) ↔ c.Legal h) ∧ (c.Legal h → c.up.run (up h) = up (c.run h))) :=
  ⟨fun _ r => reachable_up r, fun _ _ => ⟨legal_up, run_up⟩⟩

/-- Non-vacuity: a key is set and deleted; a queue; the last of two datasets wins; a value that is no collection. -/
example : get (set sample 1 b!"s" (.str b!"new")) 0 b!"d>s" = some (.str b!"new") ∧ get (del sample 1 b!"s") 0 b!"d>s" = none ∧
    (execAll sample 3 [.push (some 1), .shift, .count, .pop, .pop]).2 =
      [(.push (some 1), .done), (.shift, .elem (some 2)), (.count, .num 1), (.pop, .elem (some 1)), (.pop, .panic)] ∧
    getData (push sample 3 (some 1)) 3 b!"k" = .ok (some (.bool true)) ∧ getData (push sample 3 none) 3 b!"k" = .panic ∧
    getDataCollection sample 3 b!"k" = .panic := by decide

/-! ## C72: cloning -/

/-- **C72** Version 1: `Clone` of acyclic data without nil elements ends (without panic), and gives the same result for every sufficient bound on
the nesting. -/
theorem C72_clone_terminates {h : Heap} (wf : WF h) {a : Nat} (ha : IsDataset h a ∨ ∃ l, IsCollection h a l) (hac : Acyclic h a) (hcl : Clean h a) :
    ∃ h' c, ∀ d, h.length < d → cloneVal d h (.ptr a) = .ok (h', .ptr c) := by
  have hlt : a < (up h).length := by
    rw [up_length]
    rcases ha with ⟨m, e⟩ | ⟨l, e⟩
    · exact Xcore.Dataset.lt_of_getElem? e
    · exact Xcore.Dataset.lt_of_getElem? e
  have key : ∀ d, h.length < d → ∃ h' w, cloneVal d h (.ptr a) = .ok (h', w) := by
    intro d hd
    obtain ⟨h', w, e⟩ := Xcore.Dataset.clone_total (wf_up.2 wf) hlt (acyclic_up.2 hac) (clean_up.2 hcl) (d := d) (by rw [up_length]; exact hd)
    rw [cloneVal_up] at e
    obtain ⟨⟨h'', w'⟩, e1, e2⟩ := Xcore.Dataset.map_ok.1 e
    exact ⟨h'', w', e1⟩
  obtain ⟨h', w, e⟩ := key (h.length + 1) (Nat.lt_succ_self _)
  have e' : Xcore.Dataset.cloneVal (h.length + 1) (up h) (.ptr a) = .ok (up h', w) := by rw [cloneVal_up, e]; rfl
  obtain ⟨c, rfl, _⟩ := Xcore.Dataset.clone_new (wf_up.2 wf) hlt e'
  exact ⟨h', c, fun d hd => cloneVal_le e (Nat.succ_lt_succ hd)⟩

/-- **C72** Version 1: the clone answers every query as the original: every key and path, every getter, String and GoString. Nothing that existed
before changes. -/
theorem C72_clone_gives_same_answers {h h' : Heap} (wf : WF h) {d : Nat} {a c : Nat} (ha : a < h.length)
    (e : cloneVal d h (.ptr a) = .ok (h', .ptr c)) :
    (IsDataset h a → IsDataset h' c ∧ SameAnswers h a h' c) ∧ (∀ l, IsCollection h a l → (∃ l', IsCollection h' c l') ∧ SameCollection h a h' c) ∧
    ∀ b, b < h.length → h'[b]? = h[b]? := by
  have ha' : a < (up h).length := by rw [up_length]; exact ha
  obtain ⟨wf', g, cp⟩ := Xcore.Dataset.clone_copy (v := .ptr a) (wf_up.2 wf) ha' (clone_up e)
  have B := Xcore.Dataset.copy_bisim (wf_up.2 wf) g (up h).length
  have r : Xcore.Dataset.Valid (up h) (.ptr a) ∧ ∃ n, Xcore.Dataset.CopyN (up h).length n (up h') (.ptr a) (.ptr c) := ⟨ha', d, cp⟩
  refine ⟨fun hd => ⟨(clone_kind e).1 hd, sameAnswers_down wf (wf_up.1 wf') hd ((clone_kind e).1 hd) (B.sameAnswers (wf_up.2 wf) wf' r)⟩,
    fun l hl => ⟨(clone_kind e).2 l hl, sameCollection_down wf (wf_up.1 wf') (B.sameCollection (wf_up.2 wf) wf' r (isCollection_up.2 hl))⟩, ?_⟩
  intro b hb
  obtain ⟨x, hx⟩ := cloneVal_grows _ _ _ _ e
  dsimp only at hx
  rw [hx, List.getElem?_append_left hb]

/-- **C72** Version 1: a program that holds any objects that existed before `Clone`, but not the clone, cannot change any answer of the clone. -/
theorem C72_clone_is_not_affected {h h' h2 : Heap} (wf : WF h) {d : Nat} {a c : Nat} (ha : a < h.length)
    (e : cloneVal d h (.ptr a) = .ok (h', .ptr c)) {K : Nat → Prop} (hK : ∀ b, K b → b < h.length) {calls : List Call}
    (p : Program K h' calls h2) :
    (IsDataset h' c → SameAnswers h' c h2 c) ∧ (∀ l, IsCollection h' c l → SameCollection h' c h2 c) := by
  have ha' : a < (up h).length := by rw [up_length]; exact ha
  obtain ⟨wf', g, cp⟩ := Xcore.Dataset.clone_copy (v := .ptr a) (wf_up.2 wf) ha' (clone_up e)
  have hv : Xcore.Dataset.Valid (up h') (.ptr c) :=
    Xcore.Dataset.CopyN.valid (v := .ptr a) (Nat.lt_of_lt_of_le ha' g.length : a < (up h').length) cp
  obtain ⟨w2, k⟩ := program_down p (wf_up.1 wf')
  have q := (Xcore.Dataset.program_sameAnswers (program_up p) wf'
    (fun b hb => Nat.lt_of_lt_of_le (by rw [up_length]; exact hK b hb) g.length) hv (by
      rintro b ⟨r, hr, hrb⟩ hcb
      have h1 := Xcore.Dataset.old_reach (wf_up.2 wf) g (by rw [up_length]; exact hK r hr) hrb
      have h2 := fun hb => Xcore.Dataset.copy_reach wf' cp hcb hb
      constructor
      · intro hd; have := h2 (Or.inl hd); omega
      · intro l hl; have := h2 (Or.inr ⟨l, hl⟩); omega)).2
  exact ⟨fun hd => sameAnswers_down (wf_up.1 wf') w2 hd ((k c).1 hd) q.1,
    fun l hl => sameCollection_down (wf_up.1 wf') w2 (q.2 ⟨l, isCollection_up.2 hl⟩)⟩

/-- **C72** Version 1: a program that holds only the clone cannot change any answer of what existed before `Clone`. -/
theorem C72_original_is_not_affected {h h' h2 : Heap} (wf : WF h) {d : Nat} {a c : Nat} (ha : a < h.length)
    (e : cloneVal d h (.ptr a) = .ok (h', .ptr c)) {b : Nat} (hb : b < h.length) {calls : List Call}
    (p : Program (fun x => x = c) h' calls h2) :
    (IsDataset h' b → SameAnswers h' b h2 b) ∧ (∀ l, IsCollection h' b l → SameCollection h' b h2 b) := by
  have ha' : a < (up h).length := by rw [up_length]; exact ha
  have hb' : b < (up h).length := by rw [up_length]; exact hb
  obtain ⟨wf', g, cp⟩ := Xcore.Dataset.clone_copy (v := .ptr a) (wf_up.2 wf) ha' (clone_up e)
  have hv : Xcore.Dataset.Valid (up h') (.ptr c) :=
    Xcore.Dataset.CopyN.valid (v := .ptr a) (Nat.lt_of_lt_of_le ha' g.length : a < (up h').length) cp
  obtain ⟨w2, k⟩ := program_down p (wf_up.1 wf')
  have q := (Xcore.Dataset.program_sameAnswers (program_up p) wf' (by rintro _ rfl; exact hv) (Nat.lt_of_lt_of_le hb' g.length) (by
      rintro x ⟨r, rfl, hrb⟩ hbx
      have h1 := Xcore.Dataset.old_reach (wf_up.2 wf) g hb' hbx
      have h2 := fun hx => Xcore.Dataset.copy_reach wf' cp hrb hx
      constructor
      · intro hd; have := h2 (Or.inl hd); omega
      · intro l hl; have := h2 (Or.inr ⟨l, hl⟩); omega)).2
  exact ⟨fun hd => sameAnswers_down (wf_up.1 wf') w2 hd ((k b).1 hd) q.1,
    fun l hl => sameCollection_down (wf_up.1 wf') w2 (q.2 ⟨l, isCollection_up.2 hl⟩)⟩

/-- **C72** Version 1: no dataset and no collection can be reached both from the clone and from an object that existed before. -/
theorem C72_no_shared_dataset_or_collection {h h' : Heap} (wf : WF h) {d : Nat} {a c : Nat} (ha : a < h.length)
    (e : cloneVal d h (.ptr a) = .ok (h', .ptr c)) {b x : Nat} (hb : b < h.length) (r1 : Reach h' c x) (r2 : Reach h' b x) :
    ¬ IsDataset h' x ∧ ∀ l, ¬ IsCollection h' x l := by
  have ha' : a < (up h).length := by rw [up_length]; exact ha
  obtain ⟨wf', g, cp⟩ := Xcore.Dataset.clone_copy (v := .ptr a) (wf_up.2 wf) ha' (clone_up e)
  have h1 := Xcore.Dataset.old_reach (wf_up.2 wf) g (by rw [up_length]; exact hb) (reach_up.2 r2)
  have h2 := fun hx => Xcore.Dataset.copy_reach wf' cp (reach_up.2 r1) hx
  constructor
  · intro hd; have := h2 (Or.inl (isDataset_up.2 hd)); omega
  · intro l hl; have := h2 (Or.inr ⟨l, isCollection_up.2 hl⟩); omega

/-- **C72** Version 1: slices and language tables inside are not copied: what is written through those of the clone is seen through the
original. -/
theorem C72_slices_and_languages_are_shared :
    (∃ (h h' : Heap) (c b : Nat), Reachable h ∧ cloneVal 9 h (.ptr 1) = .ok (h', .ptr c) ∧ getSlice .string h' c b!"k" = some b ∧
      getString someExt 9 (writeSlice h' b 0 (.str b!"new")) 1 b!"k" ≠ getString someExt 9 h' 1 b!"k") ∧
    (∃ (h h' : Heap) (c b : Nat), Reachable h ∧ cloneVal 9 h (.ptr 1) = .ok (h', .ptr c) ∧ get h' c b!"k" = some (.ptr b) ∧
      getString someExt 9 (writeLang h' b b!"e" b!"new") 1 b!"k" ≠ getString someExt 9 h' 1 b!"k") := by
  refine ⟨⟨[.slice [.str b!"old"], .ds [(b!"k", .slice .string 0)]], _, _, _, ?_, rfl, rfl, by decide⟩,
    ⟨[.lang ⟨[], [], some []⟩, .ds [(b!"k", .ptr 0)]], _, _, _, ?_, rfl, rfl, by decide⟩⟩
  · exact .call (.set 1 b!"k" (.slice .string 0)) (.call .newDataset (.call (.newSlice [.str b!"old"]) .start trivial) trivial)
      ⟨⟨_, rfl⟩, ⟨_, rfl⟩⟩
  · exact .call (.set 1 b!"k" (.ptr 0)) (.call .newDataset (.call (.newLang ⟨[], [], some []⟩) .start trivial) trivial)
      ⟨⟨_, rfl⟩, by unfold Valid; decide⟩

/-- Non-vacuity: the sample can be cloned; then a program that holds the original changes a nested dataset and empties the collection. The
original answers differently, the clone does not. -/
example : let h' := match cloneVal 5 sample (.ptr 0) with | .ok r => r.1 | _ => []
    let calls : List Call := [.set 1 b!"s" (.str b!"changed"), .pop 3]
    let h2 := calls.foldl (fun h c => c.run h) h'
    Program (fun x => x = 0) h' calls h2 ∧ cloneVal 5 sample (.ptr 0) = .ok (h', .ptr 7) ∧
    get h2 0 b!"d>s" = some (.str b!"changed") ∧ get h2 7 b!"d>s" = some (.str b!"v") ∧
    get h2 0 b!"c>0>k" = none ∧ get h2 7 b!"c>0>k" = some (.bool true) := by
  refine ⟨?_, rfl, by decide⟩
  refine .call ⟨⟨_, rfl⟩, trivial⟩ ?_ (.call ⟨_, rfl⟩ ?_ .done)
  · rintro b (rfl | (hb | ⟨_, hb⟩))
    · exact ⟨0, rfl, .step (.ptr (k := b!"d") rfl (by decide)) .refl⟩
    · cases hb
    · cases hb
  · rintro b rfl
    exact ⟨3, Or.inl ⟨0, rfl, .step (.ptr (k := b!"c") rfl (by decide)) .refl⟩, .refl⟩

/-- Non-vacuity: the sample is acyclic and has no nil elements. -/
example : Acyclic sample 0 ∧ Clean sample 0 := by
  have hr : ∀ a b, Refers sample a b → (a = 0 ∧ (b = 1 ∨ b = 3)) ∨ (a = 3 ∧ b = 2) := by
    intro a b r
    have lt : ∀ {o : Obj}, sample[a]? = some o → a < 4 := fun e => Xcore.Dataset.lt_of_getElem? e
    cases r with
    | ptr e hm =>
      have := lt e
      match a, this with
      | 0, _ => cases e; simp at hm; rcases hm with ⟨_, rfl⟩ | ⟨_, rfl⟩ <;> simp
      | 1, _ => cases e; simp at hm
      | 2, _ => cases e; simp at hm
      | 3, _ => cases e
    | slice e hm =>
      have := lt e
      match a, this with
      | 0, _ => cases e; simp at hm
      | 1, _ => cases e; simp at hm
      | 2, _ => cases e; simp at hm
      | 3, _ => cases e
    | elem e hm =>
      have := lt e
      match a, this with
      | 0, _ => cases e
      | 1, _ => cases e
      | 2, _ => cases e
      | 3, _ => cases e; simp at hm; exact Or.inr ⟨rfl, hm⟩
  constructor
  · intro b c _ hbc hcb
    rcases hr b c hbc with ⟨rfl, rfl | rfl⟩ | ⟨rfl, rfl⟩
    · cases hcb with
      | step s _ => rcases hr _ _ s with ⟨q, _⟩ | ⟨q, _⟩ <;> cases q
    · cases hcb with
      | step s r =>
        rcases hr _ _ s with ⟨q, _⟩ | ⟨_, rfl⟩
        · cases q
        · cases r with
          | step s _ => rcases hr _ _ s with ⟨q, _⟩ | ⟨q, _⟩ <;> cases q
    · cases hcb with
      | step s _ => rcases hr _ _ s with ⟨q, _⟩ | ⟨q, _⟩ <;> cases q
  · intro b _ l hl
    have : b < 4 := Xcore.Dataset.lt_of_getElem? (show sample[b]? = some (.col l) from hl)
    match b, this with
    | 0, _ => cases hl
    | 1, _ => cases hl
    | 2, _ => cases hl
    | 3, _ => cases hl; simp

end Xcore.V1.Dataset
