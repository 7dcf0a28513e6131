import Verif.Proof.DatasetIndep
import Verif.Proof.DatasetPrintTotal
import Verif.Spec.V1.Dataset

/-!
# Memory of version 1 inside that of version 2
-/

namespace Xcore.V1.Dataset

open Xcore.Dataset (Val SliceKind Ext fmtScalar colText mapOpt ofFuel mapRes)

theorem up_get (h : Heap) (a : Nat) : (up h)[a]? = (h[a]?).map Obj.up := by simp [up]

theorem up_length (h : Heap) : (up h).length = h.length := by simp [up]

theorem up_ds {h : Heap} {a : Nat} {m : AMap Val} : (up h)[a]? = some (.ds m) ↔ h[a]? = some (.ds m) := by
  rw [up_get]
  cases h[a]? with
  | none => simp
  | some o => cases o <;> simp [Obj.up]

theorem up_col {h : Heap} {a : Nat} {l : List (Option Nat)} : (up h)[a]? = some (.col l) ↔ h[a]? = some (.col l) := by
  rw [up_get]
  cases h[a]? with
  | none => simp
  | some o => cases o <;> simp [Obj.up]

theorem up_slice {h : Heap} {a : Nat} {l : List Val} : (up h)[a]? = some (.slice l) ↔ h[a]? = some (.slice l) := by
  rw [up_get]
  cases h[a]? with
  | none => simp
  | some o => cases o <;> simp [Obj.up]

theorem up_dsTS {h : Heap} {a : Nat} {i : Option Nat} : (up h)[a]? ≠ some (.dsTS i) := by
  rw [up_get]
  cases h[a]? with
  | none => simp
  | some o => cases o <;> simp [Obj.up]

theorem up_colTS {h : Heap} {a : Nat} {l : List (Option Nat)} : (up h)[a]? ≠ some (.colTS l) := by
  rw [up_get]
  cases h[a]? with
  | none => simp
  | some o => cases o <;> simp [Obj.up]

theorem isDataset_up {h : Heap} {a : Nat} : Xcore.Dataset.IsDataset (up h) a ↔ IsDataset h a := by
  constructor
  · rintro (⟨m, e⟩ | ⟨i, e⟩)
    · exact ⟨m, up_ds.1 e⟩
    · exact absurd e up_dsTS
  · rintro ⟨m, e⟩; exact Or.inl ⟨m, up_ds.2 e⟩

theorem isCollection_up {h : Heap} {a : Nat} {l : List (Option Nat)} : Xcore.Dataset.IsCollection (up h) a l ↔ IsCollection h a l := by
  constructor
  · rintro (e | e)
    · exact up_col.1 e
    · exact absurd e up_colTS
  · intro e; exact Or.inl (up_col.2 e)

theorem valid_up {h : Heap} {v : Val} : Xcore.Dataset.Valid (up h) v ↔ Valid h v := by
  cases v <;> simp [Xcore.Dataset.Valid, Valid, up_length, up_slice]

theorem wf_up {h : Heap} : Xcore.Dataset.WF (up h) ↔ WF h := by
  constructor
  · intro w
    exact ⟨fun a m e => w.nodup a m (up_ds.2 e), fun a m k v e hm => valid_up.1 (w.valid a m k v (up_ds.2 e) hm),
      fun a l b e hb => isDataset_up.1 (w.elem a l b (isCollection_up.2 e) hb)⟩
  · intro w
    exact ⟨fun a m e => w.nodup a m (up_ds.1 e), fun a b e => absurd e up_dsTS, fun a m k v e hm => valid_up.2 (w.valid a m k v (up_ds.1 e) hm),
      fun a l b e hb => isDataset_up.2 (w.elem a l b (isCollection_up.1 e) hb)⟩

theorem asDataset_up (h : Heap) (v : Val) : Xcore.Dataset.asDataset (up h) v = asDataset h v := by
  cases v with
  | ptr a =>
    simp only [Xcore.Dataset.asDataset, asDataset, up_get]
    cases h[a]? with
    | none => rfl
    | some o => cases o <;> rfl
  | _ => rfl

theorem asCollection_up (h : Heap) (v : Val) : Xcore.Dataset.asCollection (up h) v = asCollection h v := by
  cases v with
  | ptr a =>
    simp only [Xcore.Dataset.asCollection, asCollection, up_get]
    cases h[a]? with
    | none => rfl
    | some o => cases o <;> rfl
  | _ => rfl

theorem elems_up (h : Heap) (a : Nat) : Xcore.Dataset.elems (up h) a = elems h a := by
  simp only [Xcore.Dataset.elems, elems, up_get]
  cases h[a]? with
  | none => rfl
  | some o => cases o <;> rfl

theorem entries_up (h : Heap) (a : Nat) : Xcore.Dataset.entries (up h) a = entries h a := by
  simp only [Xcore.Dataset.entries, entries, up_get]
  cases h[a]? with
  | none => rfl
  | some o => cases o <;> rfl

theorem target_up {h : Heap} {a : Nat} (hd : IsDataset h a) : Xcore.Dataset.target (up h) a = some a := by
  obtain ⟨m, e⟩ := hd
  simp [Xcore.Dataset.target, Xcore.Dataset.targetN, up_ds.2 e]

theorem asDataset_isDataset {h : Heap} {v : Val} {b : Nat} (e : asDataset h v = some b) : v = .ptr b ∧ IsDataset h b := by
  rw [← asDataset_up, Xcore.Dataset.asDataset_some] at e
  exact ⟨e.1, isDataset_up.1 e.2⟩

theorem colGet_up (l : List (Option Nat)) (i : Int) : Xcore.Dataset.colGet l i = colGet l i := rfl

theorem colGet_mem {l : List (Option Nat)} {i : Int} {e : Option Nat} (h : colGet l i = some e) : e ∈ l := by
  unfold colGet at h
  split at h
  · cases h
  · exact List.mem_of_getElem? h

theorem elem_isDataset {h : Heap} (wf : WF h) {c e : Nat} (hm : some e ∈ elems h c) : IsDataset h e := by
  unfold elems at hm
  split at hm
  · rename_i l hl; exact wf.elem c l e hl hm
  · cases hm

theorem getSegs_up {h : Heap} (wf : WF h) (segs : List Str) : ∀ {a : Nat}, IsDataset h a →
    Xcore.Dataset.getSegs (up h) a segs = .ok (getSegs h a segs) := by
  have gen : ∀ n (segs : List Str), segs.length ≤ n → ∀ {a : Nat}, IsDataset h a →
      Xcore.Dataset.getSegs (up h) a segs = .ok (getSegs h a segs) := by
    intro n
    induction n with
    | zero =>
      intro segs hl a hd
      cases segs with
      | nil => rfl
      | cons s r => simp at hl
    | succ n ih =>
      intro segs hl a hd
      match segs, hl with
      | [], _ => rfl
      | [key], _ => simp only [Xcore.Dataset.getSegs, getSegs, target_up hd, entries_up]
      | s :: s2 :: rest, hl =>
        simp only [List.length_cons] at hl
        simp only [Xcore.Dataset.getSegs, getSegs, target_up hd, entries_up, asDataset_up, asCollection_up, elems_up, colGet_up]
        cases (entries h a).get s with
        | none => rfl
        | some v =>
          dsimp only
          cases hb : asDataset h v with
          | some b => exact ih (s2 :: rest) (by simp only [List.length_cons]; omega) (asDataset_isDataset hb).2
          | none =>
            dsimp only
            cases asCollection h v with
            | none => rfl
            | some c =>
              dsimp only
              cases atoi s2 with
              | none => rfl
              | some i =>
                dsimp only
                cases hc : colGet (elems h c) i with
                | none => rfl
                | some e =>
                  cases e with
                  | none => rfl
                  | some e =>
                    dsimp only
                    cases rest with
                    | nil => rfl
                    | cons r rest =>
                      exact ih (r :: rest) (by simp only [List.length_cons] at hl ⊢; omega) (elem_isDataset wf (colGet_mem hc))
  exact fun {a} hd => gen segs.length segs (Nat.le_refl _) hd

theorem get_up {h : Heap} (wf : WF h) {a : Nat} (hd : IsDataset h a) (key : Str) : Xcore.Dataset.get (up h) a key = .ok (get h a key) :=
  getSegs_up wf (split 62 key) hd

theorem getDataset_up {h : Heap} (wf : WF h) {a : Nat} (hd : IsDataset h a) (key : Str) :
    Xcore.Dataset.getDataset (up h) a key = .ok (getDataset h a key) := by
  unfold Xcore.Dataset.getDataset getDataset
  rw [get_up wf hd, funext (asDataset_up h)]
  rfl

theorem getCollection_up {h : Heap} (wf : WF h) {a : Nat} (hd : IsDataset h a) (key : Str) :
    Xcore.Dataset.getCollection (up h) a key = .ok (getCollection h a key) := by
  unfold Xcore.Dataset.getCollection getCollection
  rw [get_up wf hd, funext (asCollection_up h)]
  rfl

theorem getTime_up {h : Heap} (wf : WF h) {a : Nat} (hd : IsDataset h a) (key : Str) :
    Xcore.Dataset.getTime (up h) a key = .ok (getTime h a key) := by
  unfold Xcore.Dataset.getTime getTime
  rw [get_up wf hd]
  cases get h a key with
  | none => rfl
  | some v => cases v <;> rfl

theorem getSlice_up {h : Heap} (wf : WF h) {a : Nat} (hd : IsDataset h a) (k : SliceKind) (key : Str) :
    Xcore.Dataset.getSlice k (up h) a key = .ok (getSlice k h a key) := by
  unfold Xcore.Dataset.getSlice getSlice
  rw [get_up wf hd]
  cases get h a key with
  | none => rfl
  | some v => cases v <;> rfl

theorem mapOpt_congr {α β : Type} {f g : α → Option β} (l : List α) (e : ∀ a, f a = g a) : mapOpt f l = mapOpt g l := by
  rw [funext e]

theorem lang_toString (l : Language.Lang) : Xcore.Language.toString ⟨l.name, l.tag, l.entries.getD [], []⟩ = Language.toString l := rfl

theorem sprint_up (x : Ext) (n : Nat) (h : Heap) (v : Val) : Xcore.Dataset.sprint x n (up h) v = sprint x n h v := by
  induction n generalizing v with
  | zero => rfl
  | succ n ih =>
    cases v with
    | slice k a =>
      simp only [Xcore.Dataset.sprint, sprint, up_get]
      cases h[a]? with
      | none => rfl
      | some o => cases o <;> rfl
    | ptr a =>
      simp only [Xcore.Dataset.sprint, sprint, up_get]
      cases h[a]? with
      | none => rfl
      | some o =>
        cases o with
        | ds m => simp only [Option.map_some, Obj.up, ih]; all_goals rfl
        | col l => simp only [Option.map_some, Obj.up, ih]; all_goals rfl
        | lang l => rfl
        | slice l => rfl
    | _ => rfl

theorem goSprint_up (x : Ext) (n : Nat) (h : Heap) (v : Val) : Xcore.Dataset.goSprint x n (up h) v = goSprint x n h v := by
  induction n generalizing v with
  | zero => rfl
  | succ n ih =>
    cases v with
    | slice k a =>
      simp only [Xcore.Dataset.goSprint, goSprint, up_get]
      cases h[a]? with
      | none => rfl
      | some o => cases o <;> rfl
    | ptr a =>
      simp only [Xcore.Dataset.goSprint, goSprint, up_get]
      cases h[a]? with
      | none => rfl
      | some o =>
        cases o with
        | ds m => simp only [Option.map_some, Obj.up, ih]; all_goals rfl
        | col l => simp only [Option.map_some, Obj.up, sprint_up]
        | lang l => rfl
        | slice l => rfl
    | _ => rfl

theorem getString_up (x : Ext) (n : Nat) {h : Heap} (wf : WF h) {a : Nat} (hd : IsDataset h a) (key : Str) :
    Xcore.Dataset.getString x n (up h) a key = getString x n h a key := by
  unfold Xcore.Dataset.getString getString
  rw [get_up wf hd]
  cases get h a key with
  | none => rfl
  | some v => cases v <;> simp [Res.bind, sprint_up]

theorem dsString_up (x : Ext) (n : Nat) {h : Heap} {a : Nat} (hd : IsDataset h a) :
    Xcore.Dataset.dsString x n (up h) a = ofFuel (sprint x n h (.ptr a)) := by
  simp [Xcore.Dataset.dsString, target_up hd, sprint_up]

theorem dsGoString_up (x : Ext) (n : Nat) {h : Heap} {a : Nat} (hd : IsDataset h a) :
    Xcore.Dataset.dsGoString x n (up h) a = ofFuel (goSprint x n h (.ptr a)) := by
  simp [Xcore.Dataset.dsGoString, target_up hd, goSprint_up]

/-! ## Collections -/

theorem getDataL_up {h : Heap} (wf : WF h) (key : Str) (l : List (Option Nat)) (hl : ∀ b, some b ∈ l → IsDataset h b) :
    Xcore.Dataset.getDataL (up h) key l = getDataL h key l := by
  induction l with
  | nil => rfl
  | cons d l ih =>
    cases d with
    | none => rfl
    | some a =>
      simp only [Xcore.Dataset.getDataL, getDataL, get_up wf (hl a (by simp)), Res.bind]
      cases get h a key with
      | none => exact ih fun b hb => hl b (by simp [hb])
      | some v => rfl

theorem getData_up {h : Heap} (wf : WF h) (c : Nat) (key : Str) : Xcore.Dataset.getData (up h) c key = getData h c key := by
  unfold Xcore.Dataset.getData getData
  rw [elems_up]
  exact getDataL_up wf key _ fun b hb => elem_isDataset wf (List.mem_reverse.1 hb)

theorem getDataString_up (x : Ext) (n : Nat) {h : Heap} (wf : WF h) (c : Nat) (key : Str) :
    Xcore.Dataset.getDataString x n (up h) c key = getDataString x n h c key := by
  unfold Xcore.Dataset.getDataString getDataString
  rw [getData_up wf]
  simp only [sprint_up]
  all_goals rfl

/-! ## Writing -/

theorem up_set (h : Heap) (a : Nat) (o : Obj) : up (h.set a o) = (up h).set a o.up := by simp [up, List.map_set]

theorem up_append (h e : Heap) : up (h ++ e) = up h ++ up e := by simp [up]

theorem set_up {h : Heap} {a : Nat} (hd : IsDataset h a) (key : Str) (v : Val) : Xcore.Dataset.set (up h) a key v = .ok (up (set h a key v)) := by
  simp only [Xcore.Dataset.set, target_up hd, entries_up, set, up_set, Obj.up]

theorem del_up {h : Heap} {a : Nat} (hd : IsDataset h a) (key : Str) : Xcore.Dataset.del (up h) a key = .ok (up (del h a key)) := by
  simp only [Xcore.Dataset.del, target_up hd, entries_up, del, up_set, Obj.up]

theorem setElems_up (h : Heap) (c : Nat) (l : List (Option Nat)) : Xcore.Dataset.setElems (up h) c l = up (h.set c (.col l)) := by
  unfold Xcore.Dataset.setElems
  split
  · rename_i e; exact absurd e up_colTS
  · rw [up_set]; rfl

theorem push_up (h : Heap) (c : Nat) (d : Option Nat) : Xcore.Dataset.push (up h) c d = up (push h c d) := by
  simp only [Xcore.Dataset.push, push, setElems_up, elems_up]

theorem unshift_up (h : Heap) (c : Nat) (d : Option Nat) : Xcore.Dataset.unshift (up h) c d = up (unshift h c d) := by
  simp only [Xcore.Dataset.unshift, unshift, setElems_up, elems_up]

theorem pop_up (h : Heap) (c : Nat) : Xcore.Dataset.pop (up h) c = (pop h c).map fun r => (up r.1, r.2) := by
  simp only [Xcore.Dataset.pop, pop, setElems_up, elems_up]
  cases (elems h c).getLast? <;> rfl

theorem shift_up (h : Heap) (c : Nat) : Xcore.Dataset.shift (up h) c = (shift h c).map fun r => (up r.1, r.2) := by
  simp only [Xcore.Dataset.shift, shift, setElems_up, elems_up]
  cases elems h c <;> rfl

/-! ## Cloning -/

theorem mapRes_up {α β : Type} {f : Heap → α → Res (Heap × β)} {g : Xcore.Dataset.Heap → α → Res (Xcore.Dataset.Heap × β)}
    (e : ∀ h a, g (up h) a = (f h a).map fun r => (up r.1, r.2)) (h : Heap) (l : List α) :
    mapRes g (up h) l = (mapRes f h l).map fun r => (up r.1, r.2) := by
  induction l generalizing h with
  | nil => rfl
  | cons a l ih =>
    simp only [mapRes, e]
    cases f h a with
    | ok r =>
      simp only [Res.map, Res.bind, ih]
      cases mapRes f r.1 l <;> rfl
    | panic => rfl
    | diverge => rfl

theorem res_map_map {α β γ : Type} (f : α → β) (g : β → γ) (r : Res α) : (r.map f).map g = r.map fun a => g (f a) := by
  cases r <;> rfl

theorem cloneVal_up (n : Nat) (h : Heap) (v : Val) : Xcore.Dataset.cloneVal n (up h) v = (cloneVal n h v).map fun r => (up r.1, r.2) := by
  induction n generalizing h v with
  | zero => rfl
  | succ n ih =>
    cases v with
    | ptr a =>
      simp only [Xcore.Dataset.cloneVal, cloneVal, up_get]
      cases h[a]? with
      | none => rfl
      | some o =>
        cases o with
        | ds m =>
          simp only [Option.map_some, Obj.up]
          rw [mapRes_up (f := fun h (p : Str × Val) => (cloneVal n h p.2).map fun r => (r.1, (p.1, r.2)))
            (fun h p => by rw [ih, res_map_map, res_map_map]), res_map_map, res_map_map]
          simp only [up_append, up_length]
          rfl
        | col l =>
          simp only [Option.map_some, Obj.up]
          rw [mapRes_up (f := fun h (e : Option Nat) => match e with | none => .panic | some b => cloneVal n h (.ptr b))
            (fun h e => by cases e with
              | none => rfl
              | some b => exact ih h (.ptr b)), res_map_map, res_map_map]
          simp only [up_append, up_length]
          rfl
        | lang l => rfl
        | slice l => rfl
    | _ => rfl

/-! ## Programs -/

theorem legal_up {h : Heap} {c : Call} : c.up.Legal (up h) ↔ c.Legal h := by
  cases c <;> simp [Call.up, Call.Legal, Xcore.Dataset.Call.Legal, isDataset_up, isCollection_up, valid_up, up_length]

theorem run_up {h : Heap} {c : Call} (hl : c.Legal h) : c.up.run (up h) = up (c.run h) := by
  cases c with
  | newDataset => simp only [Call.up, Xcore.Dataset.Call.run, Call.run, Xcore.Dataset.alloc, up_append]; rfl
  | newCollection => simp only [Call.up, Xcore.Dataset.Call.run, Call.run, Xcore.Dataset.alloc, up_append]; rfl
  | newSlice l => simp only [Call.up, Xcore.Dataset.Call.run, Call.run, Xcore.Dataset.alloc, up_append]; rfl
  | newLang l => simp only [Call.up, Xcore.Dataset.Call.run, Call.run, Xcore.Dataset.alloc, up_append]; rfl
  | set a k v => simp only [Call.up, Xcore.Dataset.Call.run, Call.run, set_up hl.1]
  | del a k => simp only [Call.up, Xcore.Dataset.Call.run, Call.run, del_up hl]
  | push c d => exact push_up h c d
  | unshift c d => exact unshift_up h c d
  | pop c =>
    simp only [Call.up, Xcore.Dataset.Call.run, Call.run, pop_up]
    cases pop h c <;> rfl
  | shift c =>
    simp only [Call.up, Xcore.Dataset.Call.run, Call.run, shift_up]
    cases shift h c <;> rfl
  | clone n a =>
    simp only [Call.up, Xcore.Dataset.Call.run, Call.run, cloneVal_up]
    cases cloneVal n h (.ptr a) <;> rfl

theorem reachable_up {h : Heap} (r : Reachable h) : Xcore.Dataset.Reachable (up h) := by
  induction r with
  | start => exact .start
  | call c _ hl ih => rw [← run_up hl]; exact .call c.up ih (legal_up.2 hl)

theorem refers_up {h : Heap} {a b : Nat} : Xcore.Dataset.Refers (up h) a b ↔ Refers h a b := by
  constructor
  · rintro (⟨e, hm⟩ | ⟨e, hm⟩ | e | ⟨e, hm⟩)
    · exact .ptr (up_ds.1 e) hm
    · exact .slice (up_ds.1 e) hm
    · exact absurd e up_dsTS
    · exact .elem (isCollection_up.1 e) hm
  · rintro (⟨e, hm⟩ | ⟨e, hm⟩ | ⟨e, hm⟩)
    · exact .ptr (up_ds.2 e) hm
    · exact .slice (up_ds.2 e) hm
    · exact .elem (isCollection_up.2 e) hm

theorem reach_up {h : Heap} {a b : Nat} : Xcore.Dataset.Reach (up h) a b ↔ Reach h a b := by
  constructor
  · intro r
    induction r with
    | refl => exact .refl
    | step s _ ih => exact .step (refers_up.1 s) ih
  · intro r
    induction r with
    | refl => exact .refl
    | step s _ ih => exact .step (refers_up.2 s) ih

theorem held_up {h : Heap} {K : Nat → Prop} : Xcore.Dataset.Held (up h) K = Held h K := by
  funext b
  simp only [Xcore.Dataset.Held, Held, reach_up]

theorem mentions_up {c : Call} {b : Nat} : c.up.Mentions b ↔ c.Mentions b := by
  cases c <;> simp [Call.up, Call.Mentions, Xcore.Dataset.Call.Mentions, RefV, Xcore.Dataset.RefV]

theorem program_up {K : Nat → Prop} {h h' : Heap} {cs : List Call} (p : Program K h cs h') :
    Xcore.Dataset.Program K (up h) (cs.map Call.up) (up h') := by
  induction p with
  | done => exact .done
  | call hl hm _ ih =>
    refine .call (legal_up.2 hl) ?_ ?_
    · intro b hb; rw [held_up]; exact hm b (mentions_up.1 hb)
    · rw [held_up, run_up hl, up_length, up_length]; exact ih

theorem acyclic_up {h : Heap} {a : Nat} : Xcore.Dataset.Acyclic (up h) a ↔ Acyclic h a := by
  simp only [Xcore.Dataset.Acyclic, Acyclic, reach_up, refers_up]

theorem clean_up {h : Heap} {a : Nat} : Xcore.Dataset.Clean (up h) a ↔ Clean h a := by
  simp only [Xcore.Dataset.Clean, Clean, reach_up, isCollection_up]
  exact ⟨fun q b r => (q b r).2, fun q b r => ⟨up_dsTS, q b r⟩⟩

/-! ## Answers -/

theorem plain_up {h : Heap} {v : Val} : Xcore.Dataset.Plain (up h) v ↔ Plain h v := by
  simp only [Xcore.Dataset.Plain, Plain, isDataset_up, isCollection_up]

theorem ofFuel_inj {α : Type} {a b : Option α} (e : ofFuel a = ofFuel b) : a = b := by
  cases a <;> cases b <;> simp [ofFuel] at e ⊢
  exact e

theorem plain_or {h : Heap} (v : Val) : Plain h v ∨ (∃ b, v = .ptr b ∧ IsDataset h b) ∨ ∃ b l, v = .ptr b ∧ IsCollection h b l := by
  rcases Classical.em (Plain h v) with p | p
  · exact Or.inl p
  · right
    simp only [Plain, Classical.not_forall, Classical.not_and_iff_not_or_not, Classical.not_not] at p
    obtain ⟨a, e, q | q⟩ := p
    · exact Or.inl ⟨a, e, q⟩
    · obtain ⟨l, q⟩ := q; exact Or.inr ⟨a, l, e, q⟩

theorem asDataset_ptr {h : Heap} {b : Nat} (hd : IsDataset h b) : asDataset h (.ptr b) = some b := by
  obtain ⟨m, e⟩ := hd; simp [asDataset, e]

theorem asCollection_ptr {h : Heap} {b : Nat} {l : List (Option Nat)} (hd : IsCollection h b l) : asCollection h (.ptr b) = some b := by
  have e : h[b]? = some (.col l) := hd
  simp [asCollection, e]

theorem sameAnswers_down {h h' : Heap} {a c : Nat} (wf : WF h) (wf' : WF h') (ha : IsDataset h a) (hc : IsDataset h' c)
    (s : Xcore.Dataset.SameAnswers (up h) a (up h') c) : SameAnswers h a h' c := by
  have found : ∀ key, get h' c key = none ↔ get h a key = none := by
    intro key
    have := s.found key
    rw [get_up wf' hc, get_up wf ha] at this
    simpa using this
  have plain : ∀ key v, Plain h v → get h a key = some v → get h' c key = some v := by
    intro key v hv e
    have := s.plain key v (plain_up.2 hv) (by rw [get_up wf ha, e])
    rw [get_up wf' hc] at this
    simpa using this
  have isD : ∀ key, (∃ b, getDataset h' c key = some b) ↔ ∃ b, getDataset h a key = some b := by
    intro key
    have := s.isDataset key
    simp only [getDataset_up wf' hc, getDataset_up wf ha, Res.ok.injEq] at this
    exact this
  have isC : ∀ key, (∃ b, getCollection h' c key = some b) ↔ ∃ b, getCollection h a key = some b := by
    intro key
    have := s.isCollection key
    simp only [getCollection_up wf' hc, getCollection_up wf ha, Res.ok.injEq] at this
    exact this
  have conv : ∀ {β : Type} (f : Val → Option β) (y : Option β), (∀ b, f (.ptr b) = y) → ∀ key, (get h' c key).bind f = (get h a key).bind f := by
    intro β f y hf key
    cases e : get h a key with
    | none => rw [(found key).2 e]
    | some v =>
      rcases plain_or (h := h) v with p | ⟨b, rfl, hb⟩ | ⟨b, l, rfl, hb⟩
      · rw [plain key v p e]
      · obtain ⟨b', e'⟩ := (isD key).2 ⟨b, by simp [getDataset, e, asDataset_ptr hb]⟩
        obtain ⟨w, e1, e2⟩ := Option.bind_eq_some_iff.1 e'
        rw [e1, (asDataset_isDataset e2).1]
        simp [hf]
      · obtain ⟨b', e'⟩ := (isC key).2 ⟨b, by simp [getCollection, e, asCollection_ptr hb]⟩
        obtain ⟨w, e1, e2⟩ := Option.bind_eq_some_iff.1 e'
        have : w = .ptr b' := by
          rw [← asCollection_up, Xcore.Dataset.asCollection_some] at e2
          exact e2.1
        rw [e1, this]
        simp [hf]
  exact {
    found := found
    plain := plain
    isDataset := isD
    isCollection := isC
    counts := by
      intro key b b' e e'
      have := s.counts key b b' (by rw [getCollection_up wf ha, e]) (by rw [getCollection_up wf' hc, e'])
      simpa [Xcore.Dataset.count, count, elems_up] using this
    getString := by intro x n key; rw [← getString_up x n wf' hc, ← getString_up x n wf ha]; exact s.getString x n key
    getBool := conv toBool (some true) (fun _ => rfl)
    getInt := fun x => conv (toInt x) none (fun _ => rfl)
    getFloat := conv toFloat none (fun _ => rfl)
    getTime := conv asTime none (fun _ => rfl)
    getSlice := fun k => conv (asSlice k) none (fun _ => rfl)
    string := by intro x n; have := s.string x n; rw [dsString_up x n hc, dsString_up x n ha] at this; exact ofFuel_inj this
    goString := by intro x n; have := s.goString x n; rw [dsGoString_up x n hc, dsGoString_up x n ha] at this; exact ofFuel_inj this }

theorem colGetAt_up (h : Heap) (c : Nat) (i : Int) : Xcore.Dataset.colGetAt (up h) c i = colGetAt h c i := by
  simp only [Xcore.Dataset.colGetAt, colGetAt, elems_up, colGet_up]

theorem asCollection_iff {h : Heap} {v : Val} {c : Nat} : asCollection h v = some c ↔ v = .ptr c ∧ ∃ l, IsCollection h c l := by
  rw [← asCollection_up, Xcore.Dataset.asCollection_some, isCollection_up, elems_up]
  refine ⟨fun e => ⟨e.1, _, e.2⟩, fun ⟨e, l, hl⟩ => ⟨e, ?_⟩⟩
  have hl' : h[c]? = some (.col l) := hl
  simp only [IsCollection, elems, hl']

theorem sameCollection_down {h h' : Heap} {a c : Nat} (wf : WF h) (wf' : WF h')
    (s : Xcore.Dataset.SameCollection (up h) a (up h') c) : SameCollection h a h' c where
  count := by simpa [Xcore.Dataset.count, count, elems_up] using s.count
  get := by
    intro i e he
    obtain ⟨e', h1, h2⟩ := s.get i e (by rw [colGetAt_up]; exact he)
    rw [colGetAt_up] at h1
    exact ⟨e', h1, sameAnswers_down wf wf' (elem_isDataset wf (colGet_mem he)) (elem_isDataset wf' (colGet_mem h1)) h2⟩
  getNone := by intro i; have := s.getNone i; rwa [colGetAt_up, colGetAt_up] at this
  string := by intro x n; have := s.string x n; rwa [sprint_up, sprint_up] at this

/-! ## Paths -/

theorem entry_up {h : Heap} {a : Nat} {k : Str} {v : Val} : Xcore.Dataset.Entry (up h) a k v ↔ Entry h a k v := by
  constructor
  · rintro ⟨t, m, w, e, g⟩
    cases w with
    | plain _ => exact ⟨m, up_ds.1 e, g⟩
    | wrapper e' _ => exact absurd e' up_dsTS
  · rintro ⟨m, e, g⟩
    exact ⟨a, m, .plain (up_ds.2 e), up_ds.2 e, g⟩

theorem leads_up {h : Heap} {a : Nat} {segs : List Str} {v : Val} : Xcore.Dataset.Leads (up h) a segs v ↔ Leads h a segs v := by
  constructor
  · intro l
    induction l with
    | entry e => exact .entry (entry_up.1 e)
    | dataset e hd _ ih => exact .dataset (entry_up.1 e) (isDataset_up.1 hd) ih
    | element e hc hi hl => exact .element (entry_up.1 e) (isCollection_up.1 hc) hi hl
    | through e hc hi hl _ ih => exact .through (entry_up.1 e) (isCollection_up.1 hc) hi hl ih
    | literal e p e' => exact .literal (entry_up.1 e) (plain_up.1 p) (entry_up.1 e')
  · intro l
    induction l with
    | entry e => exact .entry (entry_up.2 e)
    | dataset e hd _ ih => exact .dataset (entry_up.2 e) (isDataset_up.2 hd) ih
    | element e hc hi hl => exact .element (entry_up.2 e) (isCollection_up.2 hc) hi hl
    | through e hc hi hl _ ih => exact .through (entry_up.2 e) (isCollection_up.2 hc) hi hl ih
    | literal e p e' => exact .literal (entry_up.2 e) (plain_up.2 p) (entry_up.2 e')

/-! ## Entries -/

theorem get_key {h : Heap} {a : Nat} {k : Str} (hk : 62 ∉ k) : get h a k = (entries h a).get k := by
  unfold get; rw [split_of_not_mem hk]; rfl

theorem entries_write {h : Heap} {a : Nat} (hd : IsDataset h a) (m : AMap Val) (b : Nat) :
    entries (h.set a (.ds m)) b = if b = a then m else entries h b := by
  obtain ⟨m', e⟩ := hd
  have := Xcore.Dataset.lt_of_getElem? e
  unfold entries
  by_cases hb : b = a
  · subst hb; simp [this]
  · rw [List.getElem?_set, if_neg (Ne.symm hb), if_neg hb]

/-! ## Elements -/

theorem elems_eq {h : Heap} {c : Nat} {l : List (Option Nat)} (hc : IsCollection h c l) : elems h c = l := by
  have e : h[c]? = some (.col l) := hc
  simp [elems, e]

theorem collection_write {h : Heap} {c : Nat} {l : List (Option Nat)} (hc : IsCollection h c l) (l' : List (Option Nat)) :
    IsCollection (h.set c (.col l')) c l' ∧ ∀ b : Nat, b ≠ c → (h.set c (.col l'))[b]? = h[b]? := by
  have := Xcore.Dataset.lt_of_getElem? hc
  exact ⟨by simp [IsCollection, this], fun b hb => by rw [List.getElem?_set, if_neg (Ne.symm hb)]⟩

theorem exec_step {h : Heap} {c : Nat} {l : List (Option Nat)} (hc : IsCollection h c l) (op : Xcore.Dataset.QOp) :
    ∃ l', Xcore.Dataset.QStep l op (exec h c op).2 l' ∧ IsCollection (exec h c op).1 c l' ∧ ∀ b : Nat, b ≠ c → (exec h c op).1[b]? = h[b]? := by
  have he := elems_eq hc
  have cw := collection_write hc
  cases op with
  | push d => exact ⟨l ++ [d], .push, by simp only [exec, push, he]; exact (cw _).1, (cw _).2⟩
  | unshift d => exact ⟨d :: l, .unshift, by simp only [exec, unshift, he]; exact (cw _).1, (cw _).2⟩
  | pop =>
    simp only [exec, pop, he]
    rcases List.eq_nil_or_concat l with rfl | ⟨l', d, rfl⟩
    · exact ⟨[], .popEmpty, hc, fun _ _ => rfl⟩
    · simp only [List.concat_eq_append, List.getLast?_concat, List.dropLast_concat]
      exact ⟨l', .pop, (cw _).1, (cw _).2⟩
  | shift =>
    simp only [exec, shift, he]
    cases l with
    | nil => exact ⟨[], .shiftEmpty, hc, fun _ _ => rfl⟩
    | cons d l => exact ⟨l, .shift, (cw _).1, (cw _).2⟩
  | count => exact ⟨l, by simp only [exec, count, he]; exact .count, hc, fun _ _ => rfl⟩
  | get i =>
    refine ⟨l, ?_, hc, fun _ _ => rfl⟩
    simp only [exec, colGetAt, he]
    cases hg : colGet l i with
    | none =>
      apply Xcore.Dataset.QStep.getOut
      unfold colGet at hg
      split at hg
      · assumption
      · rename_i hn
        have : i.toNat < l.length := by omega
        rw [List.getElem?_eq_getElem this] at hg; cases hg
    | some d =>
      obtain ⟨k, rfl, hk⟩ := Xcore.Dataset.colGet_some.1 hg
      have hlt := Xcore.Dataset.lt_of_getElem? hk
      have : l = l.take k ++ [d] ++ l.drop (k + 1) := by
        have h1 : l[k] = d := by rw [List.getElem?_eq_getElem hlt] at hk; exact Option.some.inj hk
        rw [← h1, List.append_assoc, List.singleton_append, List.getElem_cons_drop, List.take_append_drop]
      have hlen : (l.take k).length = k := by rw [List.length_take]; omega
      rw [this]
      have := @Xcore.Dataset.QStep.get (l.take k) (l.drop (k + 1)) d
      rw [hlen] at this
      exact this

/-! ## Looking through a collection -/

theorem getDataL_skip {h : Heap} {key : Str} {post r : List (Option Nat)} (hp : ∀ d ∈ post, ∃ b, d = some b ∧ get h b key = none) :
    getDataL h key (post ++ r) = getDataL h key r := by
  induction post with
  | nil => rfl
  | cons d post ih =>
    obtain ⟨b, rfl, e⟩ := hp d (by simp)
    simp only [List.cons_append, getDataL, e]
    exact ih fun d hd => hp d (by simp [hd])

/-- Where the search ends. -/
theorem getDataL_cases (h : Heap) (key : Str) (r : List (Option Nat)) :
    (∀ d ∈ r, ∃ b, d = some b ∧ get h b key = none) ∨
    ∃ post d pre, r = post ++ d :: pre ∧ (∀ d ∈ post, ∃ b, d = some b ∧ get h b key = none) ∧ (d = none ∨ ∃ a v, d = some a ∧ get h a key = some v) := by
  induction r with
  | nil => exact Or.inl (by simp)
  | cons d r ih =>
    cases d with
    | none => exact Or.inr ⟨[], none, r, rfl, by simp, Or.inl rfl⟩
    | some a =>
      cases e : get h a key with
      | some v => exact Or.inr ⟨[], some a, r, rfl, by simp, Or.inr ⟨a, v, rfl, e⟩⟩
      | none =>
        have hc : ∀ l : List (Option Nat), (∀ d ∈ l, ∃ b, d = some b ∧ get h b key = none) → ∀ d ∈ some a :: l, ∃ b, d = some b ∧ get h b key = none := by
          intro l hl d hd
          rcases List.mem_cons.1 hd with rfl | hd
          · exact ⟨a, rfl, e⟩
          · exact hl d hd
        rcases ih with q | ⟨post, d, pre, rfl, hp, hd⟩
        · exact Or.inl (hc r q)
        · exact Or.inr ⟨some a :: post, d, pre, rfl, hc post hp, hd⟩

theorem getDataL_none {h : Heap} {key : Str} {r : List (Option Nat)} (hp : ∀ d ∈ r, ∃ b, d = some b ∧ get h b key = none) :
    getDataL h key r = .ok none := by
  have := getDataL_skip (r := []) hp
  rw [List.append_nil] at this
  rw [this]; rfl

/-! ## Well-formed memory -/

theorem reachable_wf {h : Heap} (r : Reachable h) : WF h := wf_up.1 (reachable_up r).wf

theorem sprint_ends (x : Ext) {h : Heap} (wf : WF h) {a : Nat} (ha : a < h.length) (hac : Acyclic h a) {d : Nat} (hd : 2 * h.length < d) :
    (∃ s, sprint x d h (.ptr a) = some s) ∧ ∃ s, goSprint x d h (.ptr a) = some s := by
  have := Xcore.Dataset.sprint_total x (wf_up.2 wf) (by rw [up_length]; exact ha) (acyclic_up.2 hac) (d := d) (by rw [up_length]; exact hd)
  simpa only [sprint_up, goSprint_up] using this

/-! ## A larger bound changes nothing -/

theorem cloneVal_mono (n : Nat) : ∀ {h : Heap} {v : Val} {r : Heap × Val}, cloneVal n h v = .ok r → cloneVal (n + 1) h v = .ok r := by
  induction n with
  | zero => intro h v r e; cases e
  | succ n ih =>
    intro h v r e
    cases v with
    | ptr a =>
      unfold cloneVal at e ⊢
      dsimp only at e ⊢
      split at e
      · obtain ⟨r1, e1, e⟩ := Xcore.Dataset.map_ok.1 e
        refine Xcore.Dataset.map_ok.2 ⟨r1, Xcore.Dataset.mapRes_mono (fun s p r e => ?_) _ _ _ e1, e⟩
        obtain ⟨r2, e2, e⟩ := Xcore.Dataset.map_ok.1 e
        exact Xcore.Dataset.map_ok.2 ⟨r2, ih e2, e⟩
      · obtain ⟨r1, e1, e⟩ := Xcore.Dataset.map_ok.1 e
        refine Xcore.Dataset.map_ok.2 ⟨r1, Xcore.Dataset.mapRes_mono (fun s p r e => ?_) _ _ _ e1, e⟩
        cases p with
        | none => cases e
        | some b => exact ih e
      · exact e
    | _ => exact e

theorem cloneVal_le {n m : Nat} {h : Heap} {v : Val} {r : Heap × Val} (e : cloneVal n h v = .ok r) (hm : n < m + 1) : cloneVal m h v = .ok r := by
  induction m with
  | zero => rw [Nat.lt_one_iff.1 hm] at e; exact e
  | succ m ih =>
    rcases Nat.lt_or_ge n (m + 1) with q | q
    · exact cloneVal_mono m (ih q)
    · rwa [show n = m + 1 by omega] at e

/-! ## What a clone is -/

theorem mapRes_grows {α β : Type} {f : Heap → α → Res (Heap × β)} (hf : ∀ h a r, f h a = .ok r → ∃ e, r.1 = h ++ e) :
    ∀ (l : List α) (h : Heap) (r : Heap × List β), mapRes f h l = .ok r → ∃ e, r.1 = h ++ e := by
  intro l
  induction l with
  | nil => intro h r e; cases e; exact ⟨[], by simp⟩
  | cons a l ih =>
    intro h r e
    simp only [mapRes] at e
    obtain ⟨r1, e1, e⟩ := Xcore.Dataset.bind_ok'.1 e
    obtain ⟨r2, e2, e⟩ := Xcore.Dataset.map_ok.1 e
    obtain ⟨x, hx⟩ := hf _ _ _ e1
    obtain ⟨y, hy⟩ := ih _ _ e2
    subst e
    exact ⟨x ++ y, by dsimp only; rw [hy, hx, List.append_assoc]⟩

theorem cloneVal_grows (n : Nat) : ∀ (h : Heap) (v : Val) (r : Heap × Val), cloneVal n h v = .ok r → ∃ e, r.1 = h ++ e := by
  induction n with
  | zero => intro h v r e; cases e
  | succ n ih =>
    intro h v r e
    cases v with
    | ptr a =>
      simp only [cloneVal] at e
      split at e
      · obtain ⟨r1, e1, e⟩ := Xcore.Dataset.map_ok.1 e
        obtain ⟨x, hx⟩ := mapRes_grows (fun h p r e => by
          obtain ⟨r2, e2, e⟩ := Xcore.Dataset.map_ok.1 e
          obtain ⟨y, hy⟩ := ih _ _ _ e2
          subst e; exact ⟨y, hy⟩) _ _ _ e1
        subst e
        exact ⟨x ++ [_], by dsimp only; rw [hx, List.append_assoc]⟩
      · obtain ⟨r1, e1, e⟩ := Xcore.Dataset.map_ok.1 e
        obtain ⟨x, hx⟩ := mapRes_grows (fun h p r e => by
          cases p with
          | none => cases e
          | some b => exact ih _ _ _ e) _ _ _ e1
        subst e
        exact ⟨x ++ [_], by dsimp only; rw [hx, List.append_assoc]⟩
      · cases e; exact ⟨[], by simp⟩
    | _ => cases e; exact ⟨[], by simp⟩

theorem clone_kind {n : Nat} {h h' : Heap} {a c : Nat} (e : cloneVal n h (.ptr a) = .ok (h', .ptr c)) :
    (IsDataset h a → IsDataset h' c) ∧ (∀ l, IsCollection h a l → ∃ l', IsCollection h' c l') := by
  cases n with
  | zero => cases e
  | succ n =>
    constructor
    · rintro ⟨m, hm⟩
      simp only [cloneVal, hm] at e
      obtain ⟨r1, _, e⟩ := Xcore.Dataset.map_ok.1 e
      cases e
      exact ⟨_, List.getElem?_concat_length⟩
    · intro l hl
      have hl' : h[a]? = some (.col l) := hl
      simp only [cloneVal, hl'] at e
      obtain ⟨r1, _, e⟩ := Xcore.Dataset.map_ok.1 e
      cases e
      exact ⟨_, List.getElem?_concat_length⟩

theorem clone_up {n : Nat} {h h' : Heap} {a c : Nat} (e : cloneVal n h (.ptr a) = .ok (h', .ptr c)) :
    Xcore.Dataset.cloneVal n (up h) (.ptr a) = .ok (up h', .ptr c) := by
  rw [cloneVal_up, e]; rfl

theorem program_down {K : Nat → Prop} {h h' : Heap} {cs : List Call} (p : Program K h cs h') (wf : WF h) :
    WF h' ∧ ∀ a, (IsDataset h a → IsDataset h' a) ∧ ∀ l, IsCollection h a l → ∃ l', IsCollection h' a l' := by
  induction p with
  | done => exact ⟨wf, fun a => ⟨id, fun l hl => ⟨l, hl⟩⟩⟩
  | @call K h h' c cs hl hm p ih =>
    have w := (c.up.run_wf (wf_up.2 wf) (legal_up.2 hl)).1
    rw [run_up hl] at w
    obtain ⟨w', k⟩ := ih (wf_up.1 w)
    refine ⟨w', fun a => ?_⟩
    have ext := (c.up.run_wf (wf_up.2 wf) (legal_up.2 hl)).2
    rw [run_up hl] at ext
    constructor
    · intro hd
      obtain ⟨m, e⟩ := hd
      obtain ⟨o', e1, e2⟩ := ext.keep a _ (up_ds.2 e)
      refine (k a).1 ?_
      cases o' <;> simp [Xcore.Dataset.SameKind] at e2
      exact ⟨_, up_ds.1 e1⟩
    · intro l e
      obtain ⟨o', e1, e2⟩ := ext.keep a _ (up_col.2 e)
      cases o' <;> simp [Xcore.Dataset.SameKind] at e2
      exact (k a).2 _ (up_col.1 e1)

end Xcore.V1.Dataset
