import Verif.Proof.DataEntry

/-! Every entry that a path asks for counts (C118). -/

namespace Xcore.Template.DataSharp

open Xcore.Dataset

/-- Datasets that lead along the segments to the dataset `m`. -/
def chain (before : List Str) (m : AMap Val) : Heap := (before.zipIdx.map fun p => Obj.ds [(p.1, Val.ptr (p.2 + 1))]) ++ [.ds m]

section

variable {before : List Str} {m : AMap Val}

theorem chain_length : (chain before m).length = before.length + 1 := by simp [chain]

theorem chain_last : (chain before m)[before.length]? = some (.ds m) := by
  rw [chain, List.getElem?_append_right (by simp)]
  simp

theorem chain_step {n : Nat} {s : Str} (e : before[n]? = some s) : (chain before m)[n]? = some (.ds [(s, .ptr (n + 1))]) := by
  have lt : n < before.length := lt_of_getElem? e
  rw [chain, List.getElem?_append_left (by simpa using lt)]
  simp [e]

theorem chain_obj {n : Nat} {o : Obj} (e : (chain before m)[n]? = some o) : (∃ s, before[n]? = some s ∧ o = .ds [(s, .ptr (n + 1))]) ∨ n = before.length ∧ o = .ds m := by
  have lt := lt_of_getElem? e
  rw [chain_length] at lt
  by_cases h : n < before.length
  · have hs : before[n]? = some before[n] := List.getElem?_eq_getElem h
    rw [chain_step hs] at e
    cases e
    exact Or.inl ⟨_, hs, rfl⟩
  · have : n = before.length := by omega
    subst this
    rw [chain_last] at e
    cases e
    exact Or.inr ⟨rfl, rfl⟩

theorem chain_ds {n : Nat} {o : Obj} (e : (chain before m)[n]? = some o) : ∃ m', o = .ds m' := by
  rcases chain_obj e with ⟨s, _, rfl⟩ | ⟨_, rfl⟩ <;> exact ⟨_, rfl⟩

theorem chain_isDataset {n : Nat} (h : n ≤ before.length) : IsDataset (chain before m) n := by
  have lt : n < (chain before m).length := by rw [chain_length]; omega
  obtain ⟨m', e⟩ := chain_ds (List.getElem?_eq_getElem lt)
  exact Or.inl ⟨m', by rw [List.getElem?_eq_getElem lt, e]⟩

theorem chain_noCol {n : Nat} {l : List (Option Nat)} (q : IsCollection (chain before m) n l) : False := by
  rcases q with q | q <;> obtain ⟨_, e⟩ := chain_ds q <;> cases e

theorem chain_entry {n : Nat} {m' : AMap Val} (e : (chain before m)[n]? = some (.ds m')) {s : Str} {v : Val} : Entry (chain before m) n s v ↔ m'.get s = some v := by
  constructor
  · rintro ⟨t, m1, w, hm, g⟩
    cases wraps_unique w (.plain e)
    rw [e] at hm; cases hm
    exact g
  · exact fun g => ⟨n, m', .plain e, e, g⟩

theorem chain_proper (hn : m.Nodup) (hv : ∀ k v, (k, v) ∈ m → ∃ s, v = .str s) : Proper (chain before m) (some 0) := by
  refine ⟨⟨fun a m' e => ?_, fun a b e => ?_, fun a m' k v e hb => ?_, fun a l b e hb => (chain_noCol e).elim⟩, fun a e => ?_, fun a l e => (chain_noCol e).elim, fun a e => ?_⟩
  · rcases chain_obj e with ⟨s, _, q⟩ | ⟨_, q⟩ <;> cases q
    · simp [AMap.Nodup, AMap.keys]
    · exact hn
  · obtain ⟨_, q⟩ := chain_ds e; cases q
  · rcases chain_obj e with ⟨s, hs, q⟩ | ⟨_, q⟩ <;> cases q
    · simp at hb
      have := lt_of_getElem? hs
      rw [hb.2]
      simp only [Valid, chain_length]
      omega
    · obtain ⟨s, rfl⟩ := hv k v hb
      trivial
  · obtain ⟨_, q⟩ := chain_ds e; cases q
  · cases e; exact chain_isDataset (by omega)

theorem chain_lang : LangOf (chain before m) 0 none := .none fun b l _ e => by
  obtain ⟨_, q⟩ := chain_ds e; cases q

/-- Along the segments one comes to the last dataset. -/
theorem chain_leads {segs : List Str} (hs : segs ≠ []) (v : Val) : ∀ (d n : Nat), n + d = before.length →
    (Leads (chain before m) n (before.drop n ++ segs) v ↔ Leads (chain before m) before.length segs v) := by
  intro d
  induction d with
  | zero =>
    intro n h
    have : n = before.length := by omega
    subst this
    simp
  | succ d ih =>
    intro n h
    have lt : n < before.length := by omega
    have hn : before[n]? = some before[n] := List.getElem?_eq_getElem lt
    have ent : ∀ {s v}, Entry (chain before m) n s v ↔ AMap.get [(before[n], Val.ptr (n + 1))] s = some v := chain_entry (chain_step hn)
    rw [← ih (n + 1) (by omega), List.drop_eq_getElem_cons lt, List.cons_append]
    have ne : before.drop (n + 1) ++ segs ≠ [] := by simp [hs]
    have only : ∀ {v}, Entry (chain before m) n before[n] v → v = .ptr (n + 1) := by
      intro v q
      have := ent.1 q
      simp [AMap.get] at this
      exact this.symm
    have has : Entry (chain before m) n before[n] (.ptr (n + 1)) := ent.2 (by simp [AMap.get])
    have isd : IsDataset (chain before m) (n + 1) := chain_isDataset (by omega)
    generalize before.drop (n + 1) ++ segs = tail at ne
    obtain ⟨s2, rest, rfl⟩ : ∃ s2 rest, tail = s2 :: rest := List.exists_cons_of_ne_nil ne
    constructor
    · intro q
      cases q with
      | dataset e _ q => cases only e; exact q
      | element _ c _ _ => exact (chain_noCol c).elim
      | through _ c _ _ _ => exact (chain_noCol c).elim
      | literal e p _ => rw [only e] at p; exact absurd isd (p _ rfl).1
    · exact fun q => .dataset has isd q

/-- The same memory but for the last dataset. -/
theorem chain_differ {m' : AMap Val} {k : Str} (g : ∀ k', k' ≠ k → m'.get k' = m.get k') : DifferOnlyIn (chain before m) (chain before m') before.length k := by
  refine ⟨⟨m, m', chain_last, chain_last, g⟩, fun c hc => ?_⟩
  by_cases h : c < before.length
  · have hs : before[c]? = some before[c] := List.getElem?_eq_getElem h
    rw [chain_step hs, chain_step hs]
  · rw [List.getElem?_eq_none (by rw [chain_length]; omega), List.getElem?_eq_none (by rw [chain_length]; omega)]

end

/-- A template that is one field. -/
def field (key : Str) : THeap := [⟨[], some [⟨.variable, key⟩], none, none⟩]

theorem field_usable (key : Str) : Usable (field key) 0 := by
  have only : ∀ c, Comes (field key) 0 c → c = 0 := by
    intro c hc
    induction hc with
    | here => rfl
    | father _ e f ih => subst ih; cases e; cases f
    | sub _ e ih => subst ih; simp [Registered, field] at e
  intro c hc
  cases only c hc
  exact ⟨[0], .top rfl rfl⟩

theorem field_text {key : Str} {before segs : List Str} (hk : split 62 key = before ++ segs) (hs : segs ≠ []) {m : AMap Val} (hn : m.Nodup)
    (hv : ∀ k v, (k, v) ∈ m → ∃ s, v = .str s) {t : Str} (q : Leads (chain before m) before.length segs (.str t)) (x : Ext) :
    ∃ n, execute x (field key) n 0 (chain before m) (some 0) = .ok (chain before m, t) := by
  have := (chain_leads (before := before) (m := m) hs (.str t) before.length 0 (by omega)).2 q
  refine (execute_iff' (field_usable key).view (chain_proper hn hv)).2 (.data chain_lang (.document ?_))
  have r := RendersIn.cons (own := elements (field key)) (look := Template.seen (field key)) (x := x) (lang := none) (sc := (0 : Nat)) (h := chain before m)
    (.variable (v := .str t) (s := t) (d := key) (.here (σ := []) (by rw [Has, hk]; exact this)) (Or.inr ⟨by simp, 1, by simp [Prints, fmtScalar]⟩)) .nil
  rw [List.append_nil] at r
  exact r

theorem field_nothing {key : Str} {before segs : List Str} (hk : split 62 key = before ++ segs) (hs : segs ≠ []) {m : AMap Val} (hn : m.Nodup)
    (hv : ∀ k v, (k, v) ∈ m → ∃ s, v = .str s) (q : ∀ v, ¬ Leads (chain before m) before.length segs v) (x : Ext) :
    ∃ n, execute x (field key) n 0 (chain before m) (some 0) = .ok (chain before m, []) := by
  refine (execute_iff' (field_usable key).view (chain_proper hn hv)).2 (.data chain_lang (.document ?_))
  have r := RendersIn.cons (own := elements (field key)) (look := Template.seen (field key)) (x := x) (lang := none) (sc := (0 : Nat)) (h := chain before m)
    (.variable (v := .nil) (s := []) (d := key) (.outer (a := 0) (σ := []) (fun w r => q w ((chain_leads (before := before) (m := m) hs w before.length 0 (by omega)).1
      (by rw [Has, hk] at r; exact r))) .missing) (Or.inl ⟨rfl, rfl⟩)) .nil
  exact r

theorem join_ne {s s2 : Str} {rest : List Str} (h : (62 : UInt8) ∉ s) : join b!">" (s :: s2 :: rest) ≠ s := by
  intro e
  apply h
  rw [← e]
  simp [join]

/-- The entries `s`, where there may be none, and `k`. -/
theorem counts {key k : Str} (ha : AsksFor key k) : ∃ (h h' : Heap) (b : Nat), Proper h (some 0) ∧ Proper h' (some 0) ∧ DifferOnlyIn h h' b k ∧
    ∀ x, ∃ n n' out out', execute x (field key) n 0 h (some 0) = .ok (h, out) ∧ execute x (field key) n' 0 h' (some 0) = .ok (h', out') ∧ out ≠ out' := by
  obtain ⟨before, s, rest, hk, hq⟩ := ha
  have hs : (62 : UInt8) ∉ s := mem_split_not_sep (s := key) (by rw [hk]; simp)
  have one : ∀ (k : Str) (t : Str), AMap.Nodup [(k, Val.str t)] ∧ ∀ k' v, (k', v) ∈ [(k, Val.str t)] → ∃ s, v = .str s := by
    intro k t
    refine ⟨by simp [AMap.Nodup, AMap.keys], fun k' v h => ?_⟩
    simp at h
    exact ⟨t, h.2⟩
  cases rest with
  | nil =>
    have : k = s := by rcases hq with e | e <;> simpa [join] using e
    subst this
    have leads : ∀ t, Leads (chain before [(k, .str t)]) before.length [k] (.str t) := fun t => .entry ((chain_entry chain_last).2 (by simp [AMap.get]))
    refine ⟨_, _, before.length, chain_proper (one k b!"x").1 (one k b!"x").2, chain_proper (one k b!"y").1 (one k b!"y").2,
      chain_differ fun k' n => by simp [AMap.get, Ne.symm n], fun x => ?_⟩
    obtain ⟨n, e⟩ := field_text hk (by simp) (one k b!"x").1 (one k b!"x").2 (leads b!"x") x
    obtain ⟨n', e'⟩ := field_text hk (by simp) (one k b!"y").1 (one k b!"y").2 (leads b!"y") x
    exact ⟨n, n', _, _, e, e', by decide⟩
  | cons s2 rest =>
    have jn := join_ne (s2 := s2) (rest := rest) hs
    generalize hj : join b!">" (s :: s2 :: rest) = j at jn hq
    have two : ∀ t : Str, AMap.Nodup [(s, Val.str b!"p"), (j, Val.str t)] ∧ ∀ k' v, (k', v) ∈ [(s, Val.str b!"p"), (j, Val.str t)] → ∃ s, v = .str s := by
      intro t
      refine ⟨by simp [AMap.Nodup, AMap.keys, Ne.symm jn], fun k' v h => ?_⟩
      simp at h
      rcases h with h | h
      · exact ⟨_, h.2⟩
      · exact ⟨_, h.2⟩
    have leads : ∀ t, Leads (chain before [(s, .str b!"p"), (j, .str t)]) before.length (s :: s2 :: rest) (.str t) := fun t =>
      .literal (w := .str b!"p") ((chain_entry chain_last).2 (by simp [AMap.get])) (fun a e => by cases e)
        (by rw [hj]; exact (chain_entry chain_last).2 (by simp [AMap.get, Ne.symm jn]))
    rcases hq with rfl | rfl
    · refine ⟨_, _, before.length, chain_proper (two b!"x").1 (two b!"x").2, chain_proper (one j b!"x").1 (one j b!"x").2,
        chain_differ fun k' n => by simp [AMap.get, Ne.symm n], fun x => ?_⟩
      obtain ⟨n, e⟩ := field_text hk (by simp) (two b!"x").1 (two b!"x").2 (leads b!"x") x
      have no : ∀ v, ¬ Entry (chain before [(j, .str b!"x")]) before.length k v := by
        intro v q
        have := (chain_entry chain_last).1 q
        simp [AMap.get, jn] at this
      obtain ⟨n', e'⟩ := field_nothing hk (by simp) (one j b!"x").1 (one j b!"x").2 (fun v q => by
        cases q with
        | dataset e _ _ => exact no _ e
        | element e _ _ _ => exact no _ e
        | through e _ _ _ _ => exact no _ e
        | literal e _ _ => exact no _ e) x
      exact ⟨n, n', _, _, e, e', by decide⟩
    · refine ⟨_, _, before.length, chain_proper (two b!"x").1 (two b!"x").2, chain_proper (two b!"y").1 (two b!"y").2,
        chain_differ fun k' n => by simp [AMap.get, Ne.symm n], fun x => ?_⟩
      obtain ⟨n, e⟩ := field_text hk (by simp) (two b!"x").1 (two b!"x").2 (leads b!"x") x
      obtain ⟨n', e'⟩ := field_text hk (by simp) (two b!"y").1 (two b!"y").2 (leads b!"y") x
      exact ⟨n, n', _, _, e, e', by decide⟩

end Xcore.Template.DataSharp
