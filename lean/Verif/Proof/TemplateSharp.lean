import Verif.Proof.TemplateLook
import Verif.Proof.TemplateGraph
import Verif.Proof.TemplateTotal

/-! Every name an element may choose is chosen for some data (C116). -/

namespace Xcore.Template.Sharp

open Xcore.Dataset

/-- A dataset with the value at the path, whatever the path is: behind a first segment with a plain value the rest is looked up as a key. -/
def dataFor (key : Str) (w : Val) : AMap Val :=
  match split 62 key with
  | s :: _ :: _ => [(key, w), (s, .bool true)]
  | _ => [(key, w)]

/-- The dataset, a collection of `n` rows, and the row. -/
def memory (m : AMap Val) (n : Nat) (row : AMap Val) : Heap := [.ds m, .col (List.replicate n (some 2)), .ds row]

/-- A template with one element, an empty one and one with a text. -/
def templates (p : Param) (subs : AMap Nat) : THeap :=
  [⟨[], some [p], some subs, none⟩, ⟨b!"empty", some [], none, some 0⟩, ⟨b!"text", some [⟨.string, b!"text"⟩], none, some 0⟩]

/-- The names stand for the two templates. -/
def Two (subs : AMap Nat) : Prop := ∀ k c, subs.get k = some c → c = 1 ∨ c = 2

/-- What the first of the names renders. -/
def textOf (subs : AMap Nat) (names : List Str) : Str := if names.findSome? subs.get = some 2 then b!"text" else []

theorem leads_dataFor {h : Heap} {key : Str} {w : Val} (e : h[0]? = some (.ds (dataFor key w))) : Leads h 0 (split 62 key) w := by
  have hj := join_split 62 key
  have hm : ∀ p ∈ split 62 key, (62 : UInt8) ∉ p := fun p hp => mem_split_not_sep hp
  unfold dataFor at e
  match hs : split 62 key with
  | [] => exact absurd hs (split_ne_nil 62 key)
  | [s] =>
    rw [hs] at e hj
    simp only [join] at hj
    subst hj
    exact .entry ⟨0, _, .plain e, e, by simp [AMap.get]⟩
  | s :: s2 :: rest =>
    rw [hs] at e hj hm
    simp only at e
    have hne : s ≠ key := by
      intro q
      have h1 := hm s (by simp)
      rw [q, ← hj] at h1
      exact h1 (by simp [join])
    refine .literal (w := .bool true) ⟨0, _, .plain e, e, ?_⟩ (fun a q => by cases q) ⟨0, _, .plain e, e, ?_⟩
    · simp [AMap.get, hne.symm]
    · simp only [AMap.get]
      rw [if_pos]
      exact hj.symm

theorem value_memory {key : Str} {w : Val} {n : Nat} {row : AMap Val} : ValueAt (memory (dataFor key w) n row) (some [0]) key w :=
  .here (leads_dataFor rfl)

theorem memory_proper {key : Str} {w : Val} {n : Nat} (hw : w = .ptr 1 ∨ ∃ t, w = .str t) (hn : n < 2 ^ 63) :
    Proper (memory (dataFor key w) n []) (some 0) := by
  have hv : Valid (memory (dataFor key w) n []) w := by
    rcases hw with rfl | ⟨t, rfl⟩
    · simp [Valid, memory]
    · trivial
  refine ⟨?_, fun a ha => ?_, fun c l hl => ?_, fun a e => by cases e; exact Or.inl ⟨_, rfl⟩⟩
  · rw [wf_iff]
    intro a o ho
    have hlt : a < 3 := lt_of_getElem? ho
    match a, hlt with
    | 0, _ =>
      cases ho
      have hm : ∀ p ∈ split 62 key, (62 : UInt8) ∉ p := fun p hp => mem_split_not_sep hp
      have hj := join_split 62 key
      refine ⟨?_, fun k v hb => ?_⟩
      · unfold dataFor
        split
        · rename_i s s2 rest hs
          rw [hs] at hm hj
          have hne : key ≠ s := by
            intro q
            have h1 := hm s (by simp)
            rw [← q, ← hj] at h1
            exact h1 (by simp [join])
          simp [AMap.Nodup, AMap.keys, hne]
        · simp [AMap.Nodup, AMap.keys]
      · unfold dataFor at hb
        split at hb
        · simp at hb
          rcases hb with ⟨-, rfl⟩ | ⟨-, rfl⟩
          · exact hv
          · trivial
        · simp at hb
          rw [hb.2]; exact hv
    | 1, _ => cases ho; intro b hb; rw [List.mem_replicate] at hb; cases hb.2; exact Or.inl ⟨_, rfl⟩
    | 2, _ => cases ho; exact ⟨by decide, by intro k v hb; simp at hb⟩
  · have hlt : a < 3 := lt_of_getElem? ha
    match a, hlt with
    | 0, _ => cases ha
    | 1, _ => cases ha
    | 2, _ => cases ha
  · rcases hl with hl | hl <;>
    · have hlt : c < 3 := lt_of_getElem? hl
      match c, hlt with
      | 0, _ => cases hl
      | 1, _ => cases hl; try (rw [List.length_replicate]; omega)
      | 2, _ => cases hl

theorem memory_lang {m row : AMap Val} {n : Nat} : LangOf (memory m n row) 0 none := by
  refine .none fun b l _ e => ?_
  have hlt : b < 3 := lt_of_getElem? e
  match b, hlt with
  | 0, _ => cases e
  | 1, _ => cases e
  | 2, _ => cases e

section

variable {p : Param} {subs : AMap Nat} {x : Ext} {lang : Option Language.Lang}

theorem seen_subs (w : Str) : seen (templates p subs) 0 w = subs.get w := by
  simp only [seen, templates, List.length_cons, List.length_nil, fathers, List.getElem?_cons_zero, Option.bind_some, List.findSome?_cons, List.findSome?_nil, Registered,
    Option.getD_some]
  cases AMap.get subs w <;> rfl

theorem templates_usable (h2 : Two subs) : Usable (templates p subs) 0 := by
  have key : ∀ c, Comes (templates p subs) 0 c → c = 0 ∨ c = 1 ∨ c = 2 := by
    intro c hc
    induction hc with
    | here => exact Or.inl rfl
    | father _ e f ih =>
      rcases ih with rfl | rfl | rfl <;> cases e <;> cases f <;> exact Or.inl rfl
    | @sub _ s v _ e ih =>
      rcases ih with rfl | rfl | rfl
      · exact Or.inr (h2 v s (by simpa [Registered, templates] using e))
      · simp [Registered, templates] at e
      · simp [Registered, templates] at e
  have c0 : Chain (templates p subs) 0 [0] := .top rfl rfl
  intro c hc
  rcases key c hc with rfl | rfl | rfl
  · exact ⟨_, c0⟩
  · exact ⟨_, .sub rfl rfl c0⟩
  · exact ⟨_, .sub rfl rfl c0⟩

theorem choose_text (h2 : Two subs) (names : List Str) (σ : Option (List Nat)) (h : Heap) :
    RendersIn (elements (templates p subs)) (seen (templates p subs)) x lang 0 (.choose names) σ h h (textOf subs names) := by
  have hs : seen (templates p subs) 0 = subs.get := funext seen_subs
  unfold textOf
  cases e : names.findSome? subs.get with
  | none => rw [if_neg (by simp)]; exact .noChoice (by rw [hs]; exact e)
  | some c =>
    obtain ⟨k, -, ek⟩ := List.exists_of_findSome?_eq_some e
    rcases h2 k c ek with rfl | rfl
    · rw [if_neg (by simp)]
      exact .chosen (sc' := 1) (by rw [hs]; exact e) (.document (show RendersIn _ _ x lang 1 (.body []) σ h h [] from .nil))
    · rw [if_pos rfl]
      refine .chosen (sc' := 2) (by rw [hs]; exact e) (.document ?_)
      show RendersIn _ _ x lang 2 (.body [⟨.string, b!"text"⟩]) σ h h (b!"text" ++ [])
      exact .cons .text .nil

theorem loop_text (h2 : Two subs) (id : Str) (m : AMap Val) (n : Nat) : ∀ (k i : Nat) (row : AMap Val), ∃ row',
    RendersIn (elements (templates p subs)) (seen (templates p subs)) x lang 0 (.loop id n i (List.replicate k (some 2))) (some [0]) (memory m n row) (memory m n row')
      (((List.range' i k).map fun j => rangeNames id j n).flatMap (textOf subs)) := by
  intro k
  induction k with
  | zero => intro i row; exact ⟨row, .loopEnd⟩
  | succ k ih =>
    intro i row
    obtain ⟨row', q⟩ := ih (i + 1) (row.set b!".counter" (.int .int (i + 1 : Nat)))
    refine ⟨row', ?_⟩
    rw [List.range'_succ, List.map_cons, List.flatMap_cons]
    exact .loop (h₁ := memory m n (row.set b!".counter" (.int .int (i + 1 : Nat)))) ⟨2, row, .plain rfl, rfl, rfl⟩ (choose_text h2 _ _ _) q

end

theorem longer {id w t : Str} (ht : t ≠ []) : id ≠ id ++ t := by
  intro e
  have := congrArg List.length e
  cases t with
  | nil => exact ht rfl
  | cons => simp at this

theorem range_last (id : Str) (i n : Nat) : ∃ pre, rangeNames id i n = pre ++ [id] ∧ id ∉ pre := by
  refine ⟨_, rfl, ?_⟩
  intro hm
  simp only [List.mem_append, List.mem_cons, List.not_mem_nil, or_false] at hm
  rcases hm with ((hm | hm) | hm) | hm
  · rw [List.append_assoc] at hm; exact longer (w := []) (by simp) hm
  all_goals
    split at hm
    · simp at hm
    · simp at hm

/-- With the name, the text; without it, nothing. -/
theorem with_name {base v : Str} {pre : List Str} (hv : v ∈ pre ++ [base]) (hb : base ∉ pre) :
    (pre ++ [base]).findSome? (AMap.get (AMap.set [(base, 1)] v 2)) = some 2 := by
  induction pre with
  | nil => simp at hv; subst hv; simp [AMap.get_set]
  | cons a pre ih =>
    rw [List.cons_append, List.findSome?_cons, AMap.get_set]
    by_cases ha : a = v
    · rw [if_pos ha]
    · rw [if_neg ha]
      have : AMap.get [(base, 1)] a = none := by
        simp only [AMap.get]
        rw [if_neg]
        intro e
        exact hb (by simp [e])
      rw [this]
      refine ih ?_ fun h => hb (by simp [h])
      simp only [List.cons_append, List.mem_cons] at hv
      exact hv.resolve_left fun e => ha e.symm

theorem two_with (base v : Str) : Two (AMap.set [(base, 1)] v 2) := by
  intro k c e
  rw [AMap.get_set] at e
  split at e
  · cases e; exact Or.inr rfl
  · simp only [AMap.get] at e
    split at e
    · cases e; exact Or.inl rfl
    · cases e

theorem two_without (base : Str) : Two [(base, 1)] := by
  intro k c e
  simp only [AMap.get] at e
  split at e
  · cases e; exact Or.inl rfl
  · cases e

theorem text_without (base : Str) (names : List Str) : textOf [(base, 1)] names = [] := by
  unfold textOf
  rw [if_neg]
  intro e
  obtain ⟨k, -, ek⟩ := List.exists_of_findSome?_eq_some e
  simp only [AMap.get] at ek
  split at ek <;> simp at ek

/-- The data for a name: what the element then tries. -/
theorem tries {p : Param} {v : Str} (hv : Names p v) (hs : ∀ (id : Str) (i : Nat), v = id ++ b!".key." ++ itoa i → (i : Int) + 1 < 2 ^ 63) :
    ∃ (m : AMap Val) (n : Nat) (base : Str) (L : List (List Str)), Proper (memory m n []) (some 0) ∧ (∀ names ∈ L, ∃ pre, names = pre ++ [base] ∧ base ∉ pre) ∧
      (∃ names ∈ L, v ∈ names) ∧ ∀ (x : Ext) (lang : Option Language.Lang) (subs : AMap Nat), Two subs → subs.get base ≠ none → ∃ row,
        RendersIn (elements (templates p subs)) (seen (templates p subs)) x lang 0 (.elem p) (some [0]) (memory m n []) (memory m n row) (L.flatMap (textOf subs)) := by
  have one : ∀ (b : Str), ∀ names ∈ [[b]], ∃ pre, names = pre ++ [b] ∧ b ∉ pre := fun b names h => ⟨[], by simpa using h, by simp⟩
  have two : ∀ (a b : Str), b ≠ a → ∀ names ∈ [[a, b]], ∃ pre, names = pre ++ [b] ∧ b ∉ pre := fun a b hne names h => ⟨[a], by simpa using h, by simpa using hne⟩
  have flat : ∀ (subs : AMap Nat) (names : List Str), [names].flatMap (textOf subs) = textOf subs names := fun subs names => by simp
  have plain : ∀ (key t : Str), Proper (memory (dataFor key (.str t)) 0 []) (some 0) := fun key t => memory_proper (Or.inr ⟨t, rfl⟩) (by decide)
  have look : ∀ {p : Param} {subs : AMap Nat} {b : Str}, subs.get b ≠ none → seen (templates p subs) 0 b ≠ none := fun h => by rw [seen_subs]; exact h
  have shows : ∀ (x : Ext) (h : Heap) (t : Str), Shows x h (.str t) t := fun x h t => Or.inr ⟨by simp, 1, by simp [Prints, fmtScalar]⟩
  have ranges : ∀ {d key id : Str} {n i : Nat}, Target d key id → i < n → n < 2 ^ 63 → v ∈ rangeNames id i n →
      ∃ (m : AMap Val) (n : Nat) (base : Str) (L : List (List Str)), Proper (memory m n []) (some 0) ∧ (∀ names ∈ L, ∃ pre, names = pre ++ [base] ∧ base ∉ pre) ∧
      (∃ names ∈ L, v ∈ names) ∧ ∀ (x : Ext) (lang : Option Language.Lang) (subs : AMap Nat), Two subs → subs.get base ≠ none → ∃ row,
        RendersIn (elements (templates ⟨.range, d⟩ subs)) (seen (templates ⟨.range, d⟩ subs)) x lang 0 (.elem ⟨.range, d⟩) (some [0]) (memory m n []) (memory m n row)
          (L.flatMap (textOf subs)) := by
    intro d key id n i ht hi hn hm
    refine ⟨dataFor key (.ptr 1), n, id, (List.range' 0 n).map fun j => rangeNames id j n, memory_proper (Or.inl rfl) hn, ?_, ⟨_, List.mem_map.2 ⟨i, ?_, rfl⟩, hm⟩, ?_⟩
    · intro names h
      obtain ⟨j, -, rfl⟩ := List.mem_map.1 h
      exact range_last id j n
    · rw [List.mem_range'_1]; omega
    · intro x lang subs h2 hb
      obtain ⟨row, q⟩ := loop_text (p := ⟨.range, d⟩) (x := x) (lang := lang) h2 id (dataFor key (.ptr 1)) n n 0 []
      refine ⟨row, .range ht (look hb) value_memory (Or.inl rfl) ?_ ?_⟩
      · intro e
        have := congrArg List.length e
        rw [List.length_replicate] at this
        simp at this
        omega
      · rw [List.length_replicate]; exact q
  cases hv with
  | @reference d _ rest e hr =>
    by_cases h1 : rest.length = 1
    · obtain ⟨key, rfl⟩ : ∃ key, rest = [key] := by
        match rest, h1 with
        | [key], _ => exact ⟨key, rfl⟩
      refine ⟨_, 0, v, [[v]], plain key [], one v, ⟨[v], by simp, by simp⟩, fun x lang subs h2 hb => ⟨[], ?_⟩⟩
      rw [flat]
      exact .referenceWithout e (look hb) value_memory (fun a q => by cases q) (choose_text h2 _ _ _)
    · refine ⟨_, 0, v, [[v]], plain [] [], one v, ⟨[v], by simp, by simp⟩, fun x lang subs h2 hb => ⟨[], ?_⟩⟩
      rw [flat]
      exact .reference e h1 hr (choose_text h2 _ _ _)
  | @referenceValue d any key pre text e =>
    by_cases h0 : text = []
    · subst h0
      refine ⟨_, 0, pre, [[pre]], plain key [], one pre, ⟨[pre], by simp, by simp⟩, fun x lang subs h2 hb => ⟨[], ?_⟩⟩
      rw [flat]
      have : textOf subs [pre] = textOf subs [pre ++ [], pre] := by
        have : ∀ f : Str → Option Nat, [pre].findSome? f = [pre ++ [], pre].findSome? f := fun f => by
          rw [List.append_nil, List.findSome?_cons, List.findSome?_cons, List.findSome?_cons]
          cases f pre <;> rfl
        simp only [textOf, this]
      rw [this]
      exact .referenceValue e value_memory (shows _ _ _) (choose_text h2 _ _ _)
    · refine ⟨_, 0, pre, [[pre ++ text, pre]], plain key text, two _ _ (longer (w := []) h0), ⟨[pre ++ text, pre], by simp, by simp⟩, fun x lang subs h2 hb => ⟨[], ?_⟩⟩
      rw [flat]
      exact .referenceValue e value_memory (shows _ _ _) (choose_text h2 _ _ _)
  | @range d key id ht => exact ranges (n := 1) (i := 0) ht (by decide) (by decide) (by simp [rangeNames])
  | @rangeNone d key id ht =>
    refine ⟨_, 0, id, [[id ++ b!".none", id]], plain key [], two _ _ (longer (w := []) (by decide)), ⟨[id ++ b!".none", id], by simp, by simp⟩, fun x lang subs h2 hb => ⟨[], ?_⟩⟩
    rw [flat]
    exact .rangeEmpty ht (look hb) value_memory (fun c l q => by cases q) (choose_text h2 _ _ _)
  | @rangeItem d key id _ i n ht hm =>
    by_cases hk : v = id ++ b!".key." ++ itoa i
    · have := hs id i hk
      exact ranges (n := i + 1) (i := i) ht (by omega) (by omega) (by simp [rangeNames, hk])
    · refine ranges (n := 1) (i := 0) ht (by decide) (by decide) ?_
      simp only [rangeNames, List.mem_append, List.mem_cons, List.not_mem_nil, or_false] at hm ⊢
      rcases hm with (((hm | hm) | hm) | hm) | hm
      · exact absurd hm hk
      · split at hm
        · simp at hm; simp [hm]
        · simp at hm
      · split at hm
        · simp at hm; simp [hm]
        · simp at hm
      · split at hm
        · simp at hm; simp [hm]
        · simp at hm
      · simp [hm]
  | @condition d key _ ht =>
    refine ⟨_, 0, v, [[v ++ b!".none", v]], plain key [], two _ _ (longer (w := []) (by decide)), ⟨[v ++ b!".none", v], by simp, by simp⟩, fun x lang subs h2 hb => ⟨[], ?_⟩⟩
    rw [flat]
    exact .conditionNone ht value_memory (shows _ _ _) (choose_text h2 _ _ _)
  | @conditionValue d key id text ht h0 =>
    refine ⟨_, 0, id, [[id ++ b!"." ++ text, id]], plain key text, two _ _ (by rw [List.append_assoc]; exact longer (w := []) (by simp)), ⟨[id ++ b!"." ++ text, id], by simp, by simp⟩,
      fun x lang subs h2 hb => ⟨[], ?_⟩⟩
    rw [flat]
    exact .conditionValue ht value_memory (fun a q => by cases q) (shows _ _ _) h0 (look hb) (choose_text h2 _ _ _)

end Xcore.Template.Sharp
