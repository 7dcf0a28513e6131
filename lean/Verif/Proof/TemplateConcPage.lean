import Verif.Proof.TemplateConcAll
import Verif.Proof.TemplateSteady

/-!
# Examples of goroutines that render at the same time
-/

namespace Xcore.Template

open Xcore.Dataset

/-! ## The page -/

theorem page_numbered {t i : Nat} (n : Numbered page t i) : t = 2 ∧ i = 1 ∨ t = 5 ∧ i = 2 := by
  obtain ⟨c, l, k, a, hc, hk, hw, rfl⟩ := n
  rw [page_rows hc] at hk
  match k, hk with
  | 0, hk =>
    cases hk
    cases hw with
    | plain e => exact Or.inl ⟨rfl, rfl⟩
    | wrapper e => cases e
  | 1, hk =>
    cases hk
    cases hw with
    | plain e => exact Or.inr ⟨rfl, rfl⟩
    | wrapper e => cases e
  | k + 2, hk => simp at hk

theorem page_undisturbed : Undisturbed pageExt pageDoc page 0 := by
  intro e up σ row v p hp
  refine ⟨page_steady e up σ row v p hp, fun _ b _ t i j _ h1 h2 => ?_, fun hk key id w ht hv => ?_⟩
  · rcases page_numbered h1 with q | q <;> rcases page_numbered h2 with q' | q' <;> omega
  · obtain ⟨k, data⟩ := p
    simp only at hk
    subst hk
    rcases page_visits v with ⟨h, rfl, rfl⟩ | ⟨h, rfl, rfl⟩ | ⟨h, rfl, rfl⟩ | ⟨h, h1⟩ | ⟨h, rfl⟩ | ⟨h, rfl⟩ <;> cases h
    · simp [pageDoc, Doc.own] at hp
      subst hp
      obtain ⟨rfl, rfl⟩ := target_unique (Or.inr ⟨[], by decide⟩ : Target b!"user:who" b!"user" b!"who") ht
      rw [page_value page_proper.ready rfl (by decide) rfl (w := .ptr 3) (by decide) hv]
      exact ⟨b!"xcore.XDataset{name:Ann}", (shows_iff page_proper.wf (by simp)).2 (by decide +kernel)⟩
    all_goals simp [pageRow, pageLast, pageWho, pageFoot, Doc.own] at hp

/-! ## Two tables of the same rows -/

/-- A template that numbers rows. -/
def listText : Str := b!"@@rows:row@@[[row]]{{.counter}}{{n}} [[]]"

def listRow : Doc := .elem ⟨.variable, b!".counter"⟩ <| .elem ⟨.variable, b!"n"⟩ <| .elem ⟨.string, b!" "⟩ .nil
def listDoc : Doc := .elem ⟨.range, b!"rows:row"⟩ <| .box b!"row" listRow .nil

/-- A thread-safe dataset (1) with a thread-safe collection of thread-safe rows. -/
def list : Heap :=
  [.ds [(b!"rows", .ptr 4)], .dsTS (some 0), .ds [(b!"n", .str b!"a")], .dsTS (some 2), .colTS [some 3, some 6], .ds [(b!"n", .str b!"b")], .dsTS (some 5)]

/-- And another one (8) with the same rows in different order. -/
def lists : Heap := list ++ [.ds [(b!"rows", .ptr 9)], .dsTS (some 7), .colTS [some 6, some 3]]

theorem list_means : Means listText listDoc := by
  obtain ⟨l, h, e⟩ := lex_reads listText
  exact ⟨by simp [listDoc, listRow, Doc.Plain], l, h, by rw [← e]; decide +kernel⟩

/-- What the rendering of a list comes to. -/
theorem list_visits {h : Heap} {r c : Nat} {l : List (Option Nat)} (hv : ∀ v, ValueAt h (some [r]) b!"rows" v → v = .ptr c) (hc : IsCollection h c l)
    (hu : ∀ l', IsCollection h c l' → l' = l) (hne : l ≠ []) {sc : List Doc} {σ : List Nat} {row : Bool} (v : Visits pageExt listDoc h r sc σ row) :
    (sc = [listDoc] ∧ σ = [r] ∧ row = false) ∨ (sc = [listRow, listDoc] ∧ row = true ∧ ∃ b, some b ∈ l ∧ σ = [b, r]) := by
  have inner : ∀ {e : Doc} {up : List Doc} {σ : List Nat} {row : Bool} {k : Kind} {t : Str}, k ≠ .string → k ≠ .variable →
      (e :: up = [listDoc] ∧ σ = [r] ∧ row = false) ∨ (e :: up = [listRow, listDoc] ∧ row = true ∧ ∃ b, some b ∈ l ∧ σ = [b, r]) → ⟨k, t⟩ ∈ e.own →
      e = listDoc ∧ up = [] ∧ σ = [r] ∧ k = .range ∧ t = b!"rows:row" := by
    intro e up σ row k t h1 h2 h hm
    rcases h with ⟨h, h3, _⟩ | ⟨h, _⟩ <;> cases h
    · simp only [listDoc, Doc.own, List.mem_cons, List.not_mem_nil, or_false, Param.mk.injEq] at hm
      exact ⟨rfl, rfl, h3, hm⟩
    · simp [listRow, Doc.own] at hm
      rcases hm with q | q | q
      · exact absurd q.1 h2
      · exact absurd q.1 h2
      · exact absurd q.1 h1
  have t1 : Target b!"rows:row" b!"rows" b!"row" := Or.inr ⟨[], by decide⟩
  have only : ∀ {names : List Str} {sc : List Doc}, names.findSome? (lookup [listDoc]) = some sc → sc = [listRow, listDoc] := by
    intro names sc e
    obtain ⟨v, _, e⟩ := List.exists_of_findSome?_eq_some e
    simp only [lookup, listDoc, Doc.find, Option.none_or] at e
    split at e
    · next h =>
      split at h
      · cases h; cases e; rfl
      · cases h
    · cases e
  induction v with
  | root => exact Or.inl ⟨rfl, rfl, rfl⟩
  | reference _ hm | referenceWith _ hm | referenceWithout _ hm | referenceValue _ hm =>
    rename_i ih
    obtain ⟨_, _, _, h, _⟩ := inner (by simp) (by simp) ih hm
    cases h
  | conditionNone _ hm | conditionValue _ hm | conditionDataset _ hm =>
    rename_i ih
    obtain ⟨_, _, _, h, _⟩ := inner (by simp) (by simp) ih hm
    cases h
  | rangeEmpty _ hm ht hval hn _ ih =>
    obtain ⟨rfl, rfl, rfl, _, rfl⟩ := inner (by simp) (by simp) ih hm
    obtain ⟨rfl, rfl⟩ := target_unique t1 ht
    exact absurd (hn c _ (hv _ hval) hc) hne
  | @range e up sc σ row t key id c' b i l' _ hm ht hval hcl hi he ih =>
    obtain ⟨rfl, rfl, rfl, _, rfl⟩ := inner (by simp) (by simp) ih hm
    obtain ⟨rfl, rfl⟩ := target_unique t1 ht
    have e1 := hv _ hval
    cases e1
    have := hu _ hcl
    subst this
    exact Or.inr ⟨only he, rfl, b, List.mem_of_getElem? hi, rfl⟩

theorem lists_wf {h : Heap} (e : h = lists ∨ h = list) : WF h ∧ Wrapped h ∧ Short h := by
  have hd : ∀ b : Nat, b = 0 ∨ b = 1 ∨ b = 2 ∨ b = 3 ∨ b = 5 ∨ b = 6 → IsDataset h b := by
    rcases e with rfl | rfl <;> rintro b (rfl | rfl | rfl | rfl | rfl | rfl) <;> first | exact Or.inl ⟨_, rfl⟩ | exact Or.inr ⟨_, rfl⟩
  have hlt : ∀ {a : Nat} {o : Obj}, h[a]? = some o → lists[a]? = some o := by
    intro a o ho
    rcases e with rfl | rfl
    · exact ho
    · unfold lists; rw [List.getElem?_append_left (lt_of_getElem? ho)]; exact ho
  have h7 : h = lists → IsDataset h 7 := by rintro rfl; exact Or.inl ⟨_, rfl⟩
  have h9 : ∀ {o : Obj}, h[7]? = some o → Valid h (.ptr 9) := by
    rcases e with rfl | rfl
    · intro o _; simp [Valid, lists, list]
    · intro o q; cases q
  have h4 : Valid h (.ptr 4) := by rcases e with rfl | rfl <;> simp [Valid, lists, list]
  have h8 : ∀ {o : Obj}, h[8]? = some o → h = lists := by
    rcases e with rfl | rfl
    · intro o _; rfl
    · intro o q; cases q
  refine ⟨?_, fun a ha => ?_, fun c l hl => ?_⟩
  · rw [wf_iff]
    intro a o ho
    have ho' := hlt ho
    have hl : a < 10 := lt_of_getElem? ho'
    match a, hl with
    | 0, _ => cases ho'; exact ⟨by decide, by intro k v hb; simp at hb; rw [hb.2]; exact h4⟩
    | 1, _ => cases ho'; exact ⟨by decide, hd 0 (by simp)⟩
    | 2, _ => cases ho'; exact ⟨by decide, by intro k v hb; simp at hb; rw [hb.2]; trivial⟩
    | 3, _ => cases ho'; exact ⟨by decide, hd 2 (by simp)⟩
    | 4, _ => cases ho'; intro b hb; simp at hb; exact hd b (by omega)
    | 5, _ => cases ho'; exact ⟨by decide, by intro k v hb; simp at hb; rw [hb.2]; trivial⟩
    | 6, _ => cases ho'; exact ⟨by decide, hd 5 (by simp)⟩
    | 7, _ => cases ho'; exact ⟨by decide, by intro k v hb; simp at hb; rw [hb.2]; exact h9 ho⟩
    | 8, _ => cases ho'; exact ⟨by decide, h7 (h8 ho)⟩
    | 9, _ => cases ho'; intro b hb; simp at hb; exact hd b (by omega)
  · have ho := hlt ha
    have hl : a < 10 := lt_of_getElem? ho
    match a, hl with
    | 0, _ | 1, _ | 2, _ | 3, _ | 4, _ | 5, _ | 6, _ | 7, _ | 8, _ | 9, _ => cases ho
  · rcases hl with ho | ho
    all_goals
      have ho := hlt ho
      have hl : c < 10 := lt_of_getElem? ho
      match c, hl with
      | 0, _ | 1, _ | 2, _ | 3, _ | 5, _ | 6, _ | 7, _ | 8, _ => cases ho
      | 4, _ | 9, _ => cases ho <;> decide

theorem list_proper {h : Heap} (e : h = lists ∨ h = list) : Proper h (some 1) := by
  obtain ⟨h1, h2, h3⟩ := lists_wf e
  refine ⟨h1, h2, h3, fun a ea => ?_⟩
  cases ea
  rcases e with rfl | rfl <;> exact Or.inr ⟨_, rfl⟩

theorem lists_proper : Proper lists (some 8) := by
  obtain ⟨h1, h2, h3⟩ := lists_wf (Or.inl rfl)
  exact ⟨h1, h2, h3, fun a ea => by cases ea; exact Or.inr ⟨_, rfl⟩⟩

theorem list_value {h : Heap} {σ : List Nat} (hr : Ready h (some σ)) {a t : Nat} {τ : List Nat} (hσ : σ = a :: τ) {key : Str} {w : Val} {m : AMap Val}
    (hs : split 62 key = [key]) (hw : h[a]? = some (.dsTS (some t))) (hm : h[t]? = some (.ds m)) (hg : m.get key = some w) {v : Val}
    (hv : ValueAt h (some σ) key v) : v = w := by
  subst hσ
  exact valueAt_unique hr hv (.here (by unfold Has; rw [hs]; exact .entry ⟨t, m, .wrapper hw (.plain hm), hm, hg⟩))

/-- A list reads no old counters. -/
theorem list_steady {h : Heap} {r : Nat} (hp : Proper h (some r)) (h3 : h[3]? = some (.dsTS (some 2))) (h2 : h[2]? = some (.ds [(b!"n", .str b!"a")]))
    (h6 : h[6]? = some (.dsTS (some 5))) (h5 : h[5]? = some (.ds [(b!"n", .str b!"b")])) {c : Nat} {l : List (Option Nat)}
    (hv : ∀ v, ValueAt h (some [r]) b!"rows" v → v = .ptr c) (hc : h[c]? = some (.colTS l)) (hne : l ≠ []) (hl : ∀ b, some b ∈ l → b = 3 ∨ b = 6) :
    Steady pageExt listDoc h r := by
  intro e up σ row v p hm
  have hu : ∀ l', IsCollection h c l' → l' = l := by
    rintro l' (q | q)
    · rw [hc] at q; cases q
    · rw [hc] at q; cases q; rfl
  rcases list_visits hv (Or.inr hc) hu hne v with ⟨q, rfl, rfl⟩ | ⟨q, rfl, b, hb, rfl⟩ <;> cases q
  · simp only [listDoc, Doc.own, List.mem_cons, List.not_mem_nil, or_false] at hm
    subst hm
    exact .range (Or.inr ⟨[], by decide⟩ : Target b!"rows:row" b!"rows" b!"row") (by unfold NoCounter; decide)
  · simp only [listRow, Doc.own, List.mem_cons, List.not_mem_nil, or_false] at hm
    rcases hm with rfl | rfl | rfl
    · exact .counter rfl
    · refine .variable (by unfold NoCounter; decide) fun v hv => ?_
      rcases hl b hb with rfl | rfl
      · rw [list_value (hp.ready.push (Or.inr ⟨_, h3⟩)) rfl (by decide) h3 h2 (w := .str b!"a") (by decide) hv]
        intro b e; cases e
      · rw [list_value (hp.ready.push (Or.inr ⟨_, h6⟩)) rfl (by decide) h6 h5 (w := .str b!"b") (by decide) hv]
        intro b e; cases e
    · exact .noData (by simp) (by simp) (by simp) (by simp) (by simp)

theorem lists_steady : Steady pageExt listDoc lists 1 ∧ Steady pageExt listDoc lists 8 ∧ Steady pageExt listDoc list 1 := by
  have rows : ∀ {h : Heap} {r t c : Nat} {v : Val}, Proper h (some r) → h[r]? = some (.dsTS (some t)) → h[t]? = some (.ds [(b!"rows", .ptr c)]) →
      ValueAt h (some [r]) b!"rows" v → v = .ptr c := fun hp hw hm hv => list_value hp.ready rfl (by decide) hw hm (by simp [AMap.get]) hv
  refine ⟨list_steady (list_proper (Or.inl rfl)) rfl rfl rfl rfl (fun v hv => rows (list_proper (Or.inl rfl)) rfl rfl hv) rfl (by simp) (by simp),
    list_steady lists_proper rfl rfl rfl rfl (fun v hv => rows lists_proper rfl rfl hv) rfl (by simp) (by simp),
    list_steady (list_proper (Or.inr rfl)) rfl rfl rfl rfl (fun v hv => rows (list_proper (Or.inr rfl)) rfl rfl hv) rfl (by simp) (by simp)⟩

theorem list_numbered {t i : Nat} (n : Numbered list t i) : t = 2 ∧ i = 1 ∨ t = 5 ∧ i = 2 := by
  obtain ⟨c, l, k, a, hc, hk, hw, rfl⟩ := n
  have hl : l = [some 3, some 6] := by
    rcases hc with q | q
    all_goals
      have hlt : c < 7 := lt_of_getElem? q
      match c, hlt with
      | 0, _ | 1, _ | 2, _ | 3, _ | 5, _ | 6, _ => cases q
      | 4, _ => cases q <;> rfl
  subst hl
  match k, hk with
  | 0, hk =>
    cases hk
    cases hw with
    | plain e => cases e
    | wrapper e w =>
      cases e
      cases w with
      | plain e => exact Or.inl ⟨rfl, rfl⟩
      | wrapper e => cases e
  | 1, hk =>
    cases hk
    cases hw with
    | plain e => cases e
    | wrapper e w =>
      cases e
      cases w with
      | plain e => exact Or.inr ⟨rfl, rfl⟩
      | wrapper e => cases e
  | k + 2, hk => simp at hk

theorem list_undisturbed : Undisturbed pageExt listDoc list 1 := by
  intro e up σ row v p hp
  refine ⟨lists_steady.2.2 e up σ row v p hp, fun _ b _ t i j _ h1 h2 => ?_, fun hk key id w ht hv => ?_⟩
  · rcases list_numbered h1 with q | q <;> rcases list_numbered h2 with q' | q' <;> omega
  · have : ∀ {e : Doc} {up : List Doc}, e :: up = [listDoc] ∨ e :: up = [listRow, listDoc] → p ∈ e.own → p.kind ≠ .condition := by
      rintro e up (q | q) hm <;> cases q
      · simp only [listDoc, Doc.own, List.mem_cons, List.not_mem_nil, or_false] at hm; subst hm; simp
      · simp only [listRow, Doc.own, List.mem_cons, List.not_mem_nil, or_false] at hm; rcases hm with rfl | rfl | rfl <;> simp
    refine absurd hk (this (up := up) ?_ hp)
    have hr : ∀ v, ValueAt list (some [1]) b!"rows" v → v = .ptr 4 :=
      fun v hv => list_value (list_proper (Or.inr rfl)).ready rfl (by decide) (h := list) (t := 0) rfl rfl (by simp [AMap.get]) hv
    rcases list_visits hr (Or.inr (rfl : list[4]? = some (.colTS [some 3, some 6]))) (by rintro l' (q | q) <;> cases q; rfl) (by simp) v with q | q
    · exact Or.inl q.1
    · exact Or.inr q.1

/-! ## Running the model -/

/-- The texts of goroutines that have ended. -/
def texts (ps : List (Prog Str)) : List (Option Str) := ps.map fun | .ret a => some a | _ => none

theorem texts_some : ∀ {ps : List (Prog Str)} {l : List Str}, texts ps = l.map some → ps = l.map .ret := by
  intro ps
  induction ps with
  | nil => intro l e; cases l with
    | nil => rfl
    | cons => simp [texts] at e
  | cons p ps ih =>
    intro l e
    cases l with
    | nil => simp [texts] at e
    | cons a l =>
      simp only [texts, List.map_cons, List.cons.injEq] at e
      rw [ih e.2]
      cases p <;> simp at e
      rw [e.1]; rfl

theorem steps_end {sched : List Nat} {c : Heap × List (Prog Str)} {g : Heap} {l : List Str}
    (e : (stepsAt sched c).map (fun c => (c.1, texts c.2)) = some (g, l.map some)) : stepsAt sched c = some (g, l.map .ret) := by
  cases h : stepsAt sched c with
  | none => rw [h] at e; cases e
  | some d =>
    obtain ⟨g', ps⟩ := d
    rw [h] at e
    simp only [Option.map_some, Option.some.injEq, Prod.mk.injEq] at e
    rw [e.1, texts_some e.2]

end Xcore.Template
