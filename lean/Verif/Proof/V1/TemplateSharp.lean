import Verif.Proof.TemplateSharp
import Verif.Proof.V1.TemplateLook

/-! Every name an element may choose is chosen for some data: version 1 (C115). -/

namespace Xcore.V1.Template.Sharp

open Xcore.Template (Kind Param parts Target rangeNames)
open Xcore.Dataset (Ext Val Prints fmtScalar)
open Xcore.V1.Dataset
open Xcore.Template.Sharp (dataFor Two textOf longer range_last)

/-- The dataset, and a collection of `n` nil elements. -/
def memory (m : AMap Val) (n : Nat) : Heap := [.ds m, .col (List.replicate n none)]

/-- A template with one element, an empty one and one with a text. -/
def templates (p : Param) (subs : AMap Nat) : THeap :=
  [⟨[], some [p], some subs⟩, ⟨b!"empty", some [], none⟩, ⟨b!"text", some [⟨.string, b!"text"⟩], none⟩]

theorem leads_dataFor {h : Heap} {key : Str} {w : Val} (e : h[0]? = some (.ds (dataFor key w))) : Leads h 0 (split 62 key) w := by
  have hj := join_split 62 key
  have hm : ∀ p ∈ split 62 key, (62 : UInt8) ∉ p := fun p hp => mem_split_not_sep hp
  unfold dataFor at e
  match hs : split 62 key with
  | [] => exact absurd hs (split_ne_nil 62 key)
  | [s] =>
    rw [hs] at e hj
    simp only [join] at hj
    subst hj
    exact .entry ⟨_, e, by simp [AMap.get]⟩
  | s :: s2 :: rest =>
    rw [hs] at e hj hm
    simp only at e
    have hne : s ≠ key := by
      intro q
      have h1 := hm s (by simp)
      rw [q, ← hj] at h1
      exact h1 (by simp [join])
    refine .literal (w := .bool true) ⟨_, e, ?_⟩ (fun a q => by cases q) ⟨_, e, ?_⟩
    · simp [AMap.get, hne.symm]
    · simp only [AMap.get]
      rw [if_pos]
      exact hj.symm

theorem found_memory {key : Str} {w : Val} {n : Nat} : FoundAt (memory (dataFor key w) n) [some 0] key (.value w) := .here (leads_dataFor rfl)

theorem found_nothing {key : Str} {n : Nat} : FoundAt (memory [] n) [some 0] key .absent := by
  have no : ∀ s v, ¬ Entry (memory [] n) 0 s v := by
    rintro s v ⟨m, e, q⟩
    cases e
    cases q
  refine .outer (fun w q => ?_) .missing
  generalize split 62 key = segs at q
  cases q with
  | entry e => exact no _ _ e
  | dataset e => exact no _ _ e
  | element e => exact no _ _ e
  | through e => exact no _ _ e
  | literal e => exact no _ _ e

theorem memory_proper {key : Str} {w : Val} {n : Nat} (hw : w = .ptr 1 ∨ ∃ t, w = .str t) : Proper (memory (dataFor key w) n) (some 0) := by
  have hv : Valid (memory (dataFor key w) n) w := by
    rcases hw with rfl | ⟨t, rfl⟩
    · simp [Valid, memory]
    · trivial
  have hm : ∀ p ∈ split 62 key, (62 : UInt8) ∉ p := fun p hp => mem_split_not_sep hp
  have hj := join_split 62 key
  refine ⟨⟨fun a m e => ?_, fun a m k v e hb => ?_, fun a l b e hb => ?_⟩, fun a e => by cases e; exact ⟨_, rfl⟩⟩
  · match a with
    | 0 =>
      cases e
      unfold dataFor
      split
      · rename_i s s2 rest hs
        rw [hs] at hm hj
        have hne : key ≠ s := by
          intro q
          have h1 := hm s (by simp)
          rw [← q, ← hj] at h1
          exact h1 (by simp [join])
        simp [AMap.Nodup, AMap.keys, hne]
      · simp [AMap.Nodup, AMap.keys]
    | 1 => cases e
    | k + 2 => simp [memory] at e
  · match a with
    | 0 =>
      cases e
      unfold dataFor at hb
      split at hb
      · simp at hb
        rcases hb with ⟨-, rfl⟩ | ⟨-, rfl⟩
        · exact hv
        · trivial
      · simp at hb
        rw [hb.2]; exact hv
    | 1 => cases e
    | k + 2 => simp [memory] at e
  · match a with
    | 0 => cases e
    | 1 => cases e; rw [List.mem_replicate] at hb; cases hb.2
    | k + 2 => simp [memory, IsCollection] at e

theorem nothing_proper {n : Nat} : Proper (memory [] n) (some 0) := by
  refine ⟨⟨fun a m e => ?_, fun a m k v e hb => ?_, fun a l b e hb => ?_⟩, fun a e => by cases e; exact ⟨_, rfl⟩⟩
  · match a with
    | 0 => cases e; simp [AMap.Nodup, AMap.keys]
    | 1 => cases e
    | k + 2 => simp [memory] at e
  · match a with
    | 0 => cases e; simp at hb
    | 1 => cases e
    | k + 2 => simp [memory] at e
  · match a with
    | 0 => cases e
    | 1 => cases e; rw [List.mem_replicate] at hb; cases hb.2
    | k + 2 => simp [memory, IsCollection] at e

theorem memory_lang {m : AMap Val} {n : Nat} : LangOf (memory m n) 0 none := by
  refine .none fun b l _ e => ?_
  match b with
  | 0 => cases e
  | 1 => cases e
  | k + 2 => simp [memory] at e

section

variable {p : Param} {subs : AMap Nat} {x : Ext} {lang : Option Language.Lang}

theorem registered_subs (w : Str) : Registered (templates p subs) 0 w = subs.get w := rfl

theorem templates_usable (h2 : Two subs) : Usable (templates p subs) 0 := by
  have key : ∀ c, Inside (templates p subs) 0 c → c = 0 ∨ c = 1 ∨ c = 2 := by
    intro c hc
    induction hc with
    | here => exact Or.inl rfl
    | @sub _ s v _ e ih =>
      rcases ih with rfl | rfl | rfl
      · exact Or.inr (h2 v s e)
      · simp [Registered, templates] at e
      · simp [Registered, templates] at e
  intro c hc
  simp only [templates, List.length_cons, List.length_nil]
  rcases key c hc with rfl | rfl | rfl <;> decide

theorem choose_text (h2 : Two subs) (names : List Str) (σ : Option (List (Option Nat))) (h : Heap) :
    RendersIn (fun t => some (elements (templates p subs) t)) (Registered (templates p subs)) x lang h 0 (.choose names) σ (.text (textOf subs names)) := by
  have hs : Registered (templates p subs) 0 = subs.get := rfl
  unfold textOf
  cases e : names.findSome? subs.get with
  | none => rw [if_neg (by simp)]; exact .noChoice (by rw [hs]; exact e)
  | some c =>
    obtain ⟨k, -, ek⟩ := List.exists_of_findSome?_eq_some e
    rcases h2 k c ek with rfl | rfl
    · rw [if_neg (by simp)]
      exact .chosen (b := 1) (by rw [hs]; exact e) (.document (l := []) rfl .nil)
    · rw [if_pos rfl]
      exact .chosen (b := 2) (by rw [hs]; exact e) (.document (l := [⟨.string, b!"text"⟩]) rfl (.cons (r := .text []) .text .nil))

theorem loop_text (h2 : Two subs) (id : Str) (h : Heap) (n : Nat) (σ : List (Option Nat)) : ∀ (k i : Nat),
    RendersIn (fun t => some (elements (templates p subs) t)) (Registered (templates p subs)) x lang h 0 (.loop id n i (List.replicate k none)) (some σ)
      (.text (((List.range' i k).map fun j => rangeNames id j n).flatMap (textOf subs))) := by
  intro k
  induction k with
  | zero => intro i; exact .loopEnd
  | succ k ih =>
    intro i
    rw [List.range'_succ, List.map_cons, List.flatMap_cons]
    exact .loop (choose_text h2 _ _ _) (ih (i + 1))

end

/-- The data for a name: what the element then tries. -/
theorem tries {p : Param} {v : Str} (hv : Names p v) :
    ∃ (m : AMap Val) (n : Nat) (base : Str) (L : List (List Str)), Proper (memory m n) (some 0) ∧ (∀ names ∈ L, ∃ pre, names = pre ++ [base] ∧ base ∉ pre) ∧
      (∃ names ∈ L, v ∈ names) ∧ ∀ (x : Ext) (lang : Option Language.Lang) (subs : AMap Nat), Two subs → subs.get base ≠ none →
        RendersIn (fun t => some (elements (templates p subs) t)) (Registered (templates p subs)) x lang (memory m n) 0 (.elem p) (some [some 0])
          (.text (L.flatMap (textOf subs))) := by
  have one : ∀ (b : Str), ∀ names ∈ [[b]], ∃ pre, names = pre ++ [b] ∧ b ∉ pre := fun b names h => ⟨[], by simpa using h, by simp⟩
  have two : ∀ (a b : Str), b ≠ a → ∀ names ∈ [[a, b]], ∃ pre, names = pre ++ [b] ∧ b ∉ pre := fun a b hne names h => ⟨[a], by simpa using h, by simpa using hne⟩
  have flat : ∀ (subs : AMap Nat) (names : List Str), [names].flatMap (textOf subs) = textOf subs names := fun subs names => by simp
  have plain : ∀ (key t : Str), Proper (memory (dataFor key (.str t)) 0) (some 0) := fun key t => memory_proper (Or.inr ⟨t, rfl⟩)
  have shows : ∀ (x : Ext) (h : Heap) (t : Str), Shows x h (.str t) t := fun x h t => Or.inr ⟨by simp, 1, by simp [Prints, fmtScalar]⟩
  have noset : ∀ (h : Heap) (t : Str), ¬ ValIsDataset h (.str t) := fun h t ⟨a, q, _⟩ => by cases q
  have ranges : ∀ {d key id : Str} {n i : Nat}, Target d key id → i < n → v ∈ rangeNames id i n →
      ∃ (m : AMap Val) (n : Nat) (base : Str) (L : List (List Str)), Proper (memory m n) (some 0) ∧ (∀ names ∈ L, ∃ pre, names = pre ++ [base] ∧ base ∉ pre) ∧
      (∃ names ∈ L, v ∈ names) ∧ ∀ (x : Ext) (lang : Option Language.Lang) (subs : AMap Nat), Two subs → subs.get base ≠ none →
        RendersIn (fun t => some (elements (templates ⟨.range, d⟩ subs) t)) (Registered (templates ⟨.range, d⟩ subs)) x lang (memory m n) 0 (.elem ⟨.range, d⟩) (some [some 0])
          (.text (L.flatMap (textOf subs))) := by
    intro d key id n i ht hi hm
    refine ⟨dataFor key (.ptr 1), n, id, (List.range' 0 n).map fun j => rangeNames id j n, memory_proper (Or.inl rfl), ?_, ⟨_, List.mem_map.2 ⟨i, ?_, rfl⟩, hm⟩, ?_⟩
    · intro names h
      obtain ⟨j, -, rfl⟩ := List.mem_map.1 h
      exact range_last id j n
    · rw [List.mem_range'_1]; omega
    · intro x lang subs h2 hb
      refine .range ht hb found_memory (l := List.replicate n none) rfl ?_
      rw [List.length_replicate]
      exact loop_text h2 id _ n _ n 0
  cases hv with
  | @reference d _ rest e hr =>
    by_cases h1 : rest.length = 1
    · obtain ⟨key, rfl⟩ : ∃ key, rest = [key] := by
        match rest, h1 with
        | [key], _ => exact ⟨key, rfl⟩
      refine ⟨_, 0, v, [[v]], plain key [], one v, ⟨[v], by simp, by simp⟩, fun x lang subs h2 hb => ?_⟩
      rw [flat]
      exact .referenceWithout e hb found_memory (by simp) (fun w q => by cases q; exact noset _ _) (choose_text h2 _ _ _)
    · refine ⟨_, 0, v, [[v]], plain [] [], one v, ⟨[v], by simp, by simp⟩, fun x lang subs h2 hb => ?_⟩
      rw [flat]
      exact .reference e h1 hr (choose_text h2 _ _ _)
  | @referenceValue d any key pre text e =>
    by_cases h0 : text = []
    · subst h0
      refine ⟨_, 0, pre, [[pre]], plain key [], one pre, ⟨[pre], by simp, by simp⟩, fun x lang subs h2 hb => ?_⟩
      rw [flat]
      have : textOf subs [pre] = textOf subs [pre ++ [], pre] := by
        have : ∀ f : Str → Option Nat, [pre].findSome? f = [pre ++ [], pre].findSome? f := fun f => by
          rw [List.append_nil, List.findSome?_cons, List.findSome?_cons, List.findSome?_cons]
          cases f pre <;> rfl
        simp only [textOf, this]
      rw [this]
      exact .referenceValue e found_memory (.value (shows _ _ _)) (choose_text h2 _ _ _)
    · refine ⟨_, 0, pre, [[pre ++ text, pre]], plain key text, two _ _ (longer (w := []) h0), ⟨[pre ++ text, pre], by simp, by simp⟩, fun x lang subs h2 hb => ?_⟩
      rw [flat]
      exact .referenceValue e found_memory (.value (shows _ _ _)) (choose_text h2 _ _ _)
  | @range d key id ht => exact ranges (n := 1) (i := 0) ht (by decide) (by simp [rangeNames])
  | @rangeNone d key id ht =>
    refine ⟨_, 0, id, [[id ++ b!".none", id]], nothing_proper, two _ _ (longer (w := []) (by decide)), ⟨[id ++ b!".none", id], by simp, by simp⟩, fun x lang subs h2 hb => ?_⟩
    rw [flat]
    exact .rangeAbsent ht hb found_nothing (choose_text h2 _ _ _)
  | @rangeItem d key id _ i n ht hm =>
    by_cases hk : v = id ++ b!".key." ++ itoa i
    · exact ranges (n := i + 1) (i := i) ht (by omega) (by simp [rangeNames, hk])
    · refine ranges (n := 1) (i := 0) ht (by decide) ?_
      simp only [rangeNames, List.mem_append, List.mem_cons, List.not_mem_nil, or_false] at hm ⊢
      rcases hm with (((hm | hm) | hm) | hm) | hm
      · exact absurd hm hk
      · split at hm
        · simp at hm; simp [hm]
        · simp at hm
      · split at hm
        · simp at hm; simp [hm]
        · simp at hm
      · split at hm
        · simp at hm; simp [hm]
        · simp at hm
      · simp [hm]
  | @condition d key _ ht =>
    refine ⟨_, 0, v, [[v ++ b!"." ++ b!"x", v]], plain key b!"x", two _ _ (by rw [List.append_assoc]; exact longer (w := []) (by simp)), ⟨[v ++ b!"." ++ b!"x", v], by simp, by simp⟩,
      fun x lang subs h2 hb => ?_⟩
    rw [flat]
    exact .condition ht hb found_memory (noset _ _) (shows _ _ _) (by decide) (choose_text h2 _ _ _)
  | @conditionValue d key id text ht h0 =>
    refine ⟨_, 0, id, [[id ++ b!"." ++ text, id]], plain key text, two _ _ (by rw [List.append_assoc]; exact longer (w := []) (by simp)), ⟨[id ++ b!"." ++ text, id], by simp, by simp⟩,
      fun x lang subs h2 hb => ?_⟩
    rw [flat]
    exact .condition ht hb found_memory (noset _ _) (shows _ _ _) h0 (choose_text h2 _ _ _)

end Xcore.V1.Template.Sharp
