import Verif.Base.StrLemmas
import Verif.Spec.DatasetPrint
import Verif.Proof.DatasetWF

/-!
# Printing: order independence, depth independence
-/

namespace Xcore.Dataset

theorem mapOpt_some {α β : Type} {f : α → Option β} {l : List α} {m : List β} :
    mapOpt f l = some m ↔ All2 (fun a b => f a = some b) l m := by
  induction l generalizing m with
  | nil =>
    simp only [mapOpt, Option.some.injEq]
    constructor
    · rintro rfl; exact .nil
    · intro h; cases h; rfl
  | cons a l ih =>
    simp only [mapOpt]
    cases hf : f a with
    | none =>
      simp only [reduceCtorEq, false_iff]
      intro h; cases h with | cons h1 _ => rw [hf] at h1; cases h1
    | some b =>
      cases hm : mapOpt f l with
      | none =>
        simp only [reduceCtorEq, false_iff]
        intro h; cases h with | cons h1 h2 => rw [← ih, hm] at h2; cases h2
      | some bs =>
        simp only [Option.some.injEq]
        constructor
        · rintro rfl; exact .cons hf (ih.1 hm)
        · intro h
          cases h with
          | cons h1 h2 =>
            rw [hf] at h1; cases h1
            rw [← ih, hm] at h2; cases h2; rfl

theorem All2.perm {α β : Type} {R : α → β → Prop} {l l' : List α} (hp : l.Perm l') : ∀ {m : List β}, All2 R l m → ∃ m', All2 R l' m' ∧ m.Perm m' := by
  induction hp with
  | nil => intro m h; exact ⟨m, h, .refl _⟩
  | cons a _ ih =>
    intro m h
    cases h with
    | cons h1 h2 => obtain ⟨m', h3, h4⟩ := ih h2; exact ⟨_, .cons h1 h3, .cons _ h4⟩
  | swap a b l =>
    intro m h
    cases h with
    | cons h1 h2 => cases h2 with | cons h3 h4 => exact ⟨_, .cons h3 (.cons h1 h4), .swap _ _ _⟩
  | trans _ _ ih1 ih2 =>
    intro m h
    obtain ⟨m1, h1, p1⟩ := ih1 h
    obtain ⟨m2, h2, p2⟩ := ih2 h1
    exact ⟨m2, h2, p1.trans p2⟩

theorem sorted_join {lines sorted : List Str} (hp : sorted.Perm lines) (hs : SortedList sorted) : sorted = sortStrs lines :=
  sortStrs_unique hs hp

theorem colText_eq (i : Nat) (texts : List Str) :
    colText i texts = ((texts.zipIdx i).map fun p => itoa p.2 ++ b!":" ++ p.1 ++ b!" ").flatten := by
  induction texts generalizing i with
  | nil => rfl
  | cons t l ih => simp [colText, List.zipIdx_cons, ih]

theorem colText_listed (texts : List Str) : colText 0 texts = listed texts := colText_eq 0 texts

/-- Every order of iteration gives what `sprint` gives. -/
theorem prints_iff (x : Ext) (n : Nat) (h : Heap) (v : Val) (s : Str) : Prints x n h v s ↔ sprint x n h v = some s := by
  induction n generalizing v s with
  | zero => simp [Prints, sprint]
  | succ n ih =>
    have hcol : ∀ (l : List (Option Addr)) (pre : Str),
        (∃ texts, All2 (fun e t => match e with | none => t = b!"<nil>" | some b => Prints x n h (.ptr b) t) l texts ∧
          s = pre ++ listed texts ++ b!"]") ↔
        (match mapOpt (fun e : Option Addr => match e with | none => some b!"<nil>" | some b => sprint x n h (.ptr b)) l with
          | none => none
          | some l => some (pre ++ colText 0 l ++ b!"]")) = some s := by
      intro l pre
      simp only [colText_listed]
      constructor
      · rintro ⟨texts, ha, rfl⟩
        rw [mapOpt_some.2 (ha.imp fun e t _ he => ?_)]
        cases e with
        | none => simp only at he ⊢; rw [he]
        | some b => exact (ih _ _).1 he
      · intro hm
        split at hm
        · cases hm
        · rename_i texts ht
          cases hm
          refine ⟨texts, (mapOpt_some.1 ht).imp fun e t _ he => ?_, rfl⟩
          cases e with
          | none => simp only [Option.some.injEq] at he ⊢; rw [he]
          | some b => exact (ih _ _).2 he
    cases v with
    | ptr a =>
      simp only [Prints, sprint]
      cases ho : h[a]? with
      | none => simp [eq_comm]
      | some o =>
        cases o with
        | ds m =>
          simp only
          constructor
          · rintro ⟨visited, lines, sorted, hp, ha, hs, hso, rfl⟩
            obtain ⟨lines', ha', hpl⟩ := All2.perm hp ha
            have hm : mapOpt (fun p : Str × Val => (sprint x n h p.2).map fun s => p.1 ++ b!":" ++ s) m = some lines' := by
              rw [mapOpt_some]
              refine ha'.imp fun p line _ hl => ?_
              obtain ⟨text, h1, rfl⟩ := hl
              rw [(ih _ _).1 h1]; rfl
            rw [hm]
            simp only
            rw [sorted_join hs hso, sortStrs_congr hpl]
          · intro hm
            split at hm
            · cases hm
            · rename_i lines hl
              cases hm
              refine ⟨m, lines, sortStrs lines, .refl _, ?_, sortStrs_perm _, sortStrs_sorted _, rfl⟩
              refine (mapOpt_some.1 hl).imp fun p line _ he => ?_
              cases hsp : sprint x n h p.2 with
              | none => rw [hsp] at he; cases he
              | some text => rw [hsp] at he; cases he; exact ⟨text, (ih _ _).2 hsp, rfl⟩
        | dsTS i =>
          simp only
          cases target h a with
          | none => simp [eq_comm, panicText]
          | some t => exact ih _ _
        | col l => exact hcol l _
        | colTS l => exact hcol l _
        | lang l => simp [eq_comm]
        | slice l => simp [eq_comm]
    | slice k a =>
      simp only [Prints, sprint]
      cases ho : h[a]? with
      | none => simp [eq_comm]
      | some o => cases o <;> simp [eq_comm]
    | _ => simp [Prints, sprint, eq_comm]

theorem goPrints_iff (x : Ext) (n : Nat) (h : Heap) (v : Val) (s : Str) : GoPrints x n h v s ↔ goSprint x n h v = some s := by
  induction n generalizing v s with
  | zero => simp [GoPrints, goSprint]
  | succ n ih =>
    cases v with
    | ptr a =>
      simp only [GoPrints, goSprint]
      cases ho : h[a]? with
      | none => simp [eq_comm]
      | some o =>
        cases o with
        | ds m =>
          simp only
          constructor
          · rintro ⟨visited, lines, sorted, hp, ha, hs, hso, rfl⟩
            obtain ⟨lines', ha', hpl⟩ := All2.perm hp ha
            have hm : mapOpt (fun p : Str × Val => (goSprint x n h p.2).map fun s => p.1 ++ b!":" ++ s) m = some lines' := by
              rw [mapOpt_some]
              refine ha'.imp fun p line _ hl => ?_
              obtain ⟨text, h1, rfl⟩ := hl
              rw [(ih _ _).1 h1]; rfl
            rw [hm]
            simp only
            rw [sorted_join hs hso, sortStrs_congr hpl]
          · intro hm
            split at hm
            · cases hm
            · rename_i lines hl
              cases hm
              refine ⟨m, lines, sortStrs lines, .refl _, ?_, sortStrs_perm _, sortStrs_sorted _, rfl⟩
              refine (mapOpt_some.1 hl).imp fun p line _ he => ?_
              cases hsp : goSprint x n h p.2 with
              | none => rw [hsp] at he; cases he
              | some text => rw [hsp] at he; cases he; exact ⟨text, (ih _ _).2 hsp, rfl⟩
        | dsTS i =>
          simp only
          cases target h a with
          | none => simp [eq_comm, panicText]
          | some t => exact ih _ _
        | col l => exact prints_iff x n h _ s
        | colTS l => exact prints_iff x n h _ s
        | lang l => simp [eq_comm]
        | slice l => simp [eq_comm]
    | slice k a =>
      simp only [GoPrints, goSprint]
      cases ho : h[a]? with
      | none => simp [eq_comm]
      | some o => cases o <;> simp [eq_comm]
    | _ => simp [GoPrints, goSprint, eq_comm]

/-- A larger bound on the depth gives the same text. -/
theorem sprint_mono {x : Ext} {n : Nat} {h : Heap} {v : Val} {s : Str} (e : sprint x n h v = some s) : sprint x (n + 1) h v = some s := by
  induction n generalizing v s with
  | zero => cases e
  | succ n ih =>
    rw [← prints_iff] at e ⊢
    have ih' : ∀ {v s}, Prints x n h v s → Prints x (n + 1) h v s := fun h1 => (prints_iff ..).2 (ih ((prints_iff ..).1 h1))
    revert e
    have hcol : ∀ (l : List (Option Addr)) (pre : Str),
        (∃ texts, All2 (fun e t => match e with | none => t = b!"<nil>" | some b => Prints x n h (.ptr b) t) l texts ∧
          s = pre ++ listed texts ++ b!"]") →
        (∃ texts, All2 (fun e t => match e with | none => t = b!"<nil>" | some b => Prints x (n + 1) h (.ptr b) t) l texts ∧
          s = pre ++ listed texts ++ b!"]") := by
      rintro l pre ⟨texts, ha, rfl⟩
      refine ⟨texts, ha.imp fun e t _ he => ?_, rfl⟩
      cases e with
      | none => exact he
      | some b => exact ih' he
    cases v with
    | ptr a =>
      rw [Prints, Prints]
      cases ho : h[a]? with
      | none => exact id
      | some o =>
        cases o with
        | ds m =>
          rintro ⟨visited, lines, sorted, hp, ha, hs⟩
          exact ⟨visited, lines, sorted, hp, ha.imp fun p line _ ⟨t, h1, h2⟩ => ⟨t, ih' h1, h2⟩, hs⟩
        | dsTS i =>
          simp only
          cases target h a with
          | none => exact id
          | some t => exact ih'
        | col l => exact hcol l _
        | colTS l => exact hcol l _
        | lang l => exact id
        | slice l => exact id
    | slice k a => rw [Prints, Prints]; exact id
    | _ => exact id

theorem goSprint_mono {x : Ext} {n : Nat} {h : Heap} {v : Val} {s : Str} (e : goSprint x n h v = some s) : goSprint x (n + 1) h v = some s := by
  induction n generalizing v s with
  | zero => cases e
  | succ n ih =>
    rw [← goPrints_iff] at e ⊢
    have ih' : ∀ {v s}, GoPrints x n h v s → GoPrints x (n + 1) h v s := fun h1 => (goPrints_iff ..).2 (ih ((goPrints_iff ..).1 h1))
    have ihp : ∀ {v s}, Prints x n h v s → Prints x (n + 1) h v s := fun h1 => (prints_iff ..).2 (sprint_mono ((prints_iff ..).1 h1))
    revert e
    cases v with
    | ptr a =>
      rw [GoPrints, GoPrints]
      cases ho : h[a]? with
      | none => exact id
      | some o =>
        cases o with
        | ds m =>
          rintro ⟨visited, lines, sorted, hp, ha, hs⟩
          exact ⟨visited, lines, sorted, hp, ha.imp fun p line _ ⟨t, h1, h2⟩ => ⟨t, ih' h1, h2⟩, hs⟩
        | dsTS i =>
          simp only
          cases target h a with
          | none => exact id
          | some t => exact ih'
        | col l => exact ihp
        | colTS l => exact ihp
        | lang l => exact id
        | slice l => exact id
    | slice k a => rw [GoPrints, GoPrints]; exact id
    | _ => exact id

theorem sprint_le {x : Ext} {n n' : Nat} {h : Heap} {v : Val} {s : Str} (hn : n ≤ n') (e : sprint x n h v = some s) : sprint x n' h v = some s := by
  induction hn with
  | refl => exact e
  | step _ ih => exact sprint_mono ih

theorem goSprint_le {x : Ext} {n n' : Nat} {h : Heap} {v : Val} {s : Str} (hn : n ≤ n') (e : goSprint x n h v = some s) : goSprint x n' h v = some s := by
  induction hn with
  | refl => exact e
  | step _ ih => exact goSprint_mono ih

end Xcore.Dataset
