import Verif.Proof.V1.Page
import Verif.Proof.DatasetIndep

/-! # The content of a clone in version 1 -/

namespace Xcore.V1.Page

open Xcore.Template (Kind Param Doc)
open Xcore.Dataset (Ext Val CopyN)
open Xcore.V1.Dataset
open Xcore.V1.Template hiding langOf

/-- What is copied has a content, and the copy has the same. -/
theorem copy_content {h h' : Heap} {L : Nat} (wf : WF h) (hp : Pointers h) (old : ∀ b, b < h.length → h'[b]? = h[b]?) : ∀ (n : Nat) {v w : Val},
    CopyN L n (up h') v w → Valid h v → (∀ b l, v = .ptr b → h[b]? ≠ some (.slice l)) →
    ∃ d, Holds h v d ∧ Holds h' w d ∧ ∀ a, v = .ptr a → IsDataset h a → ∃ fs, d = .record fs
  | 0, _, _, c, _, _ => c.elim
  | n + 1, v, w, c, hv, ht => by
    have same : Single v → w = v → ∃ d, Holds h v d ∧ Holds h' w d ∧ ∀ a, v = .ptr a → IsDataset h a → ∃ fs, d = .record fs := fun q e =>
      ⟨_, .scalar q, by rw [e]; exact .scalar q, fun a e => by rw [e] at q; exact q.elim⟩
    cases v with
    | slice k a =>
      obtain ⟨l, hl⟩ := hv
      have e : w = .slice k a := c
      subst e
      exact ⟨_, .array hl, .array (by rw [old a (Xcore.Dataset.lt_of_getElem? hl)]; exact hl), fun a e => by cases e⟩
    | ptr a =>
      have ha : h[a]? = some h[a] := List.getElem?_eq_getElem hv
      have ha' : h'[a]? = h[a]? := old a hv
      simp only [CopyN, up_get, ha', ha, Option.map_some] at c
      cases ho : h[a] with
      | slice l => rw [ho] at ha; exact absurd ha (ht a l rfl)
      | lang l =>
        rw [ho] at ha c
        have e : w = .ptr a := c
        subst e
        exact ⟨_, .table ha, .table (by rw [ha', ha]), fun a e ⟨m, hm⟩ => by cases e; rw [ha] at hm; cases hm⟩
      | ds m =>
        rw [ho] at ha c
        obtain ⟨b, m', rfl, _, hb0, hh⟩ := c
        have hb := up_ds.1 ((up_get _ _).trans hb0)
        have hval : ∀ p ∈ m, Valid h p.2 ∧ ∀ b l, p.2 = .ptr b → h[b]? ≠ some (.slice l) := fun p hp' =>
          ⟨wf.valid a m p.1 p.2 ha hp', fun b l e => hp a m p.1 b l ha (by rw [← e]; exact hp')⟩
        have key : ∃ fs : Fields, All2 (fun (p : Str × Val) (q : Str × Data) => p.1 = q.1 ∧ Holds h p.2 q.2) m fs ∧
            All2 (fun (p : Str × Val) (q : Str × Data) => p.1 = q.1 ∧ Holds h' p.2 q.2) m' fs := by
          clear ha hb hb0 ho
          induction hh with
          | nil => exact ⟨[], .nil, .nil⟩
          | @cons p q m m' hr _ ih =>
            obtain ⟨fs, h1, h2⟩ := ih fun p hp => hval p (List.mem_cons_of_mem _ hp)
            obtain ⟨d, hd, hd', _⟩ := copy_content wf hp old n hr.2 (hval p (by simp)).1 (hval p (by simp)).2
            exact ⟨(p.1, d) :: fs, .cons ⟨rfl, hd⟩ h1, .cons ⟨hr.1.symm, hd'⟩ h2⟩
        obtain ⟨fs, h1, h2⟩ := key
        exact ⟨_, record_of_all2 ha h1, record_of_all2 hb h2, fun _ _ _ => ⟨fs, rfl⟩⟩
      | col l =>
        rw [ho] at ha c
        obtain ⟨b, l', rfl, _, hb0, hh⟩ := c
        have hb := up_col.1 ((up_get _ _).trans hb0)
        have hel : ∀ b, some b ∈ l → IsDataset h b := fun b hb => wf.elem a l b ha hb
        have key : ∃ rs : List (Option Fields), All2 (RowHolds h) l rs ∧ All2 (RowHolds h') l' rs := by
          clear ha hb hb0 ho
          induction hh with
          | nil => exact ⟨[], .nil, .nil⟩
          | @cons p q m m' hr _ ih =>
            obtain ⟨rs, h1, h2⟩ := ih fun p hp => hel p (List.mem_cons_of_mem _ hp)
            obtain ⟨b1, b2, rfl, rfl, hc⟩ := hr
            obtain ⟨m1, hm1⟩ := hel b1 (by simp)
            obtain ⟨d, hd, hd', he⟩ := copy_content wf hp old n hc (Xcore.Dataset.lt_of_getElem? hm1) (fun c l e => by cases e; rw [hm1]; simp)
            obtain ⟨fs, rfl⟩ := he b1 rfl ⟨m1, hm1⟩
            exact ⟨some fs :: rs, .cons hd h1, .cons hd' h2⟩
        obtain ⟨rs, h1, h2⟩ := key
        exact ⟨_, rows_of_all2 ha h1, rows_of_all2 hb h2, fun a' e ⟨m, hm⟩ => by cases e; rw [ha] at hm; cases hm⟩
    | _ => exact same trivial c

/-- The clone of a dataset has the same content. -/
theorem clone_content {h h' : Heap} (wf : WF h) (hp : Pointers h) {n a c : Nat} (hd : IsDataset h a) (e : cloneVal n h (.ptr a) = .ok (h', .ptr c)) :
    WF h' ∧ ∃ fs, Holds h (.ptr a) (.record fs) ∧ Holds h' (.ptr c) (.record fs) := by
  obtain ⟨m, hm⟩ := hd
  have ha := Xcore.Dataset.lt_of_getElem? hm
  obtain ⟨wf', g, cp⟩ := Xcore.Dataset.clone_copy (v := .ptr a) (wf_up.2 wf) (show a < (up h).length by rw [up_length]; exact ha) (clone_up e)
  obtain ⟨x, hx⟩ := cloneVal_grows _ _ _ _ e
  dsimp only at hx
  obtain ⟨d, h1, h2, h3⟩ := copy_content wf hp (fun b hb => by rw [hx, List.getElem?_append_left hb]) n cp ha (fun b l e => by cases e; rw [hm]; simp)
  obtain ⟨fs, rfl⟩ := h3 a rfl ⟨m, hm⟩
  exact ⟨wf_up.1 wf', fs, h1, h2⟩

/-! ## Content that is not reached does not matter -/

/-- The objects the value refers to. -/
def RefersTo : Val → Nat → Prop
  | .ptr a, b => b = a
  | .slice _ a, b => b = a
  | _, _ => False

theorem holds_frame {h h2 : Heap} {v : Val} {d : Data} (o : Holds h v d) :
    (∀ a, RefersTo v a → ∀ b, Reach h a b → h2[b]? = h[b]?) → Holds h2 v d := by
  induction o with
  | scalar q => intro _; exact .scalar q
  | @array k a l e => intro hr; exact .array (by rw [hr a rfl a .refl]; exact e)
  | @table a l e => intro hr; exact .table (by rw [hr a rfl a .refl]; exact e)
  | @record a m m' fs e hp hk _ ih =>
    intro hr
    refine .record (by rw [hr a rfl a .refl]; exact e) hp hk fun i k k' v d h1 h3 => ih i k k' v d h1 h3 fun b hb c hc => ?_
    refine hr a rfl c (.step ?_ hc)
    have hm : (k, v) ∈ m := hp.mem_iff.1 (List.mem_of_getElem? h1)
    cases v <;> simp only [RefersTo] at hb <;> try exact hb.elim
    · subst hb; exact .slice e hm
    · subst hb; exact .ptr e hm
  | @rows c l rs e hk _ ih =>
    intro hr
    refine .rows (by unfold IsCollection at *; rw [hr c rfl c .refl]; exact e) hk fun i a fs h1 h3 => ih i a fs h1 h3 fun b hb x hx => ?_
    cases hb
    exact hr c rfl x (.step (.elem e (List.mem_of_getElem? h1)) hx)

/-- Language tables are not changed by calls. -/
theorem run_lang {h : Heap} {c : Call} (hl : c.Legal h) {a : Nat} {l : Language.Lang} (e : h[a]? = some (.lang l)) : (c.run h)[a]? = some (.lang l) := by
  have ha := Xcore.Dataset.lt_of_getElem? e
  have app : ∀ x : Heap, (h ++ x)[a]? = some (.lang l) := fun x => by rw [List.getElem?_append_left ha]; exact e
  have atds : ∀ (b : Nat) (o : Obj), IsDataset h b → (h.set b o)[a]? = some (.lang l) := fun b o ⟨m, hm⟩ => by
    rw [List.getElem?_set_ne, e]; rintro rfl; rw [e] at hm; cases hm
  have atcol : ∀ (b : Nat) (o : Obj), (∃ l, IsCollection h b l) → (h.set b o)[a]? = some (.lang l) := fun b o ⟨m, hm⟩ => by
    rw [List.getElem?_set_ne, e]; rintro rfl; unfold IsCollection at hm; rw [e] at hm; cases hm
  cases c with
  | newDataset | newCollection | newSlice | newLang => exact app _
  | set b k v => exact atds b _ hl.1
  | del b k => exact atds b _ hl
  | push b d => exact atcol b _ hl.1
  | unshift b d => exact atcol b _ hl.1
  | pop b =>
    simp only [Call.run, pop]
    split
    · next r hr =>
      split at hr
      · cases hr
      · cases hr; exact atcol b _ hl
    · exact e
  | shift b =>
    simp only [Call.run, shift]
    split
    · next r hr =>
      split at hr
      · cases hr
      · cases hr; exact atcol b _ hl
    · exact e
  | clone n b =>
    simp only [Call.run]
    split
    · next r hr =>
      obtain ⟨x, hx⟩ := cloneVal_grows _ _ _ _ hr
      rw [hx]; exact app x
    · exact e

theorem program_lang {K : Nat → Prop} {h h' : Heap} {cs : List Call} (p : Program K h cs h') {a : Nat} {l : Language.Lang} (e : h[a]? = some (.lang l)) :
    h'[a]? = some (.lang l) := by
  induction p with
  | done => exact e
  | call hl _ _ ih => exact ih (run_lang hl e)

/-- A program that cannot get at the datasets and collections of a content does not change it. -/
theorem program_content {K : Nat → Prop} {h h2 : Heap} {cs : List Call} (p : Program K h cs h2) (wf : WF h) (hK : ∀ a, K a → a < h.length) {c : Nat} (hc : c < h.length)
    (hdis : ∀ b, Held h K b → Reach h c b → ¬ IsDataset h b ∧ ∀ l, ¬ IsCollection h b l) {d : Data} (o : Holds h (.ptr c) d) : WF h2 ∧ Holds h2 (.ptr c) d := by
  have wfu := wf_up.2 wf
  obtain ⟨w2, hs⟩ := Xcore.Dataset.program_frame (S := Xcore.Dataset.Reach (up h) c) (program_up p) wfu (fun a ha => by rw [up_length]; exact hK a ha)
    (fun a ha => Xcore.Dataset.reach_lt wfu ha (by rw [up_length]; exact hc)) (fun _ _ => Xcore.Dataset.Reach.tail) (by
      rintro b ⟨r, hr, hrb⟩ hcb
      obtain ⟨h1, h2⟩ := hdis b ⟨r, hr, reach_up.1 hrb⟩ (reach_up.1 hcb)
      exact ⟨fun hd => h1 (isDataset_up.1 hd), fun l hl => h2 l (isCollection_up.1 hl)⟩)
  refine ⟨wf_up.1 w2, holds_frame o fun a ha b hb => ?_⟩
  have ha : a = c := ha
  subst ha
  have hlt : b < h.length := by have := Xcore.Dataset.reach_lt wfu (reach_up.2 hb) (by rw [up_length]; exact hc); rwa [up_length] at this
  have e := hs b (reach_up.2 hb)
  have hb' : h[b]? = some h[b] := List.getElem?_eq_getElem hlt
  rw [up_get, up_get, hb'] at e
  cases ho : h[b] with
  | lang l => rw [ho] at hb'; rw [hb']; exact program_lang p hb'
  | ds m => rw [ho] at e hb'; rw [hb']; exact up_ds.1 (by rw [up_get]; exact e)
  | col l => rw [ho] at e hb'; rw [hb']; exact up_col.1 (by rw [up_get]; exact e)
  | slice l => rw [ho] at e hb'; rw [hb']; exact up_slice.1 (by rw [up_get]; exact e)

/-- A program that holds objects from before `Clone` does not change the content of the clone. -/
theorem clone_kept {h h' h2 : Heap} (wf : WF h) {k a c : Nat} (hd : IsDataset h a) (e : cloneVal k h (.ptr a) = .ok (h', .ptr c)) {K : Nat → Prop}
    (hK : ∀ b, K b → b < h.length) {calls : List Call} (p : Program K h' calls h2) {d : Data} (o : Holds h' (.ptr c) d) : WF h2 ∧ Holds h2 (.ptr c) d := by
  obtain ⟨m, hm⟩ := hd
  have ha : a < (up h).length := by rw [up_length]; exact Xcore.Dataset.lt_of_getElem? hm
  obtain ⟨wf', g, cp⟩ := Xcore.Dataset.clone_copy (v := .ptr a) (wf_up.2 wf) ha (clone_up e)
  have hv : c < (up h').length := Xcore.Dataset.CopyN.valid (v := .ptr a) (Nat.lt_of_lt_of_le ha g.length : a < (up h').length) cp
  have hg := g.length
  rw [up_length, up_length] at hg
  refine program_content p (wf_up.1 wf') (fun b hb => Nat.lt_of_lt_of_le (hK b hb) hg) (by rwa [up_length] at hv) ?_ o
  rintro b ⟨r, hr, hrb⟩ hcb
  have h1 := Xcore.Dataset.old_reach (wf_up.2 wf) g (by rw [up_length]; exact hK r hr) (reach_up.2 hrb)
  have h2 := fun hb => Xcore.Dataset.copy_reach wf' cp (reach_up.2 hcb) hb
  constructor
  · intro hd; have := h2 (Or.inl (isDataset_up.2 hd)); omega
  · intro l hl; have := h2 (Or.inr ⟨l, isCollection_up.2 hl⟩); omega

/-- A program that holds the clone does not change the content of the data. -/
theorem original_kept {h h' h2 : Heap} (wf : WF h) {k a c : Nat} (hd : IsDataset h a) (e : cloneVal k h (.ptr a) = .ok (h', .ptr c))
    {calls : List Call} (p : Program (fun b => b = c) h' calls h2) {d : Data} (o : Holds h (.ptr a) d) : WF h2 ∧ Holds h2 (.ptr a) d := by
  obtain ⟨m, hm⟩ := hd
  have ha : a < (up h).length := by rw [up_length]; exact Xcore.Dataset.lt_of_getElem? hm
  obtain ⟨wf', g, cp⟩ := Xcore.Dataset.clone_copy (v := .ptr a) (wf_up.2 wf) ha (clone_up e)
  have hv : c < (up h').length := Xcore.Dataset.CopyN.valid (v := .ptr a) (Nat.lt_of_lt_of_le ha g.length : a < (up h').length) cp
  have hg := g.length
  obtain ⟨x, hx⟩ := cloneVal_grows _ _ _ _ e
  dsimp only at hx
  have o' : Holds h' (.ptr a) d := holds_frame o fun a' ha' b hb => by
    cases ha'
    have := Xcore.Dataset.reach_lt (wf_up.2 wf) (reach_up.2 hb) ha
    rw [up_length] at this
    rw [hx, List.getElem?_append_left this]
  refine program_content p (wf_up.1 wf') (fun b hb => by rw [hb]; rwa [up_length] at hv) (by rw [up_length] at ha hg; rw [up_length] at hg; omega) ?_ o'
  rintro b ⟨r, rfl, hrb⟩ hab
  have h1 := Xcore.Dataset.old_reach (wf_up.2 wf) g ha (reach_up.2 hab)
  have h2 := fun hb => Xcore.Dataset.copy_reach wf' cp (reach_up.2 hrb) hb
  constructor
  · intro hd; have := h2 (Or.inl (isDataset_up.2 hd)); omega
  · intro l hl; have := h2 (Or.inr ⟨l, isCollection_up.2 hl⟩); omega

/-- `Execute` gives the page of the content. -/
theorem execute_page {x : Ext} {th : THeap} {t : Nat} {d : Doc} (hcmp : Compiled th t d []) {h : Heap} {data : Option Nat} (hp : Proper h data) {fs : Option Fields}
    (hc : Content h data fs) {n : Nat} (hn : nesting d < n) : execute x th n t h data = match render x d fs with | .text out => .ok out | .panic => .panic := by
  have m := execute_meets (x := x) hcmp hp hn
  have q := render_executes (x := x) hp.wf hc d
  cases r : execute x th n t h data with
  | ok o => rw [r] at m; rw [(m _).1 q]
  | panic => rw [r] at m; rw [(m _).1 q]
  | diverge => rw [r] at m; exact absurd q (m _)

end Xcore.V1.Page
