import Verif.Proof.Dataset

namespace Xcore.Dataset

theorem lt_of_getElem? {α : Type} {l : List α} {i : Nat} {x : α} (h : l[i]? = some x) : i < l.length := by
  rcases Nat.lt_or_ge i l.length with h' | h'
  · exact h'
  · rw [List.getElem?_eq_none h'] at h; cases h

/-- What `WF` asks of one object at address `a`. -/
def Good (h : Heap) (a : Addr) : Obj → Prop
  | .ds m => m.Nodup ∧ ∀ (k : Str) (v : Val), (k, v) ∈ m → Valid h v
  | .dsTS (some b) => b < a ∧ IsDataset h b
  | .col l => ∀ b : Addr, some b ∈ l → IsDataset h b
  | .colTS l => ∀ b : Addr, some b ∈ l → IsDataset h b
  | _ => True

theorem wf_iff {h : Heap} : WF h ↔ ∀ (a : Addr) (o : Obj), h[a]? = some o → Good h a o := by
  constructor
  · intro wf a o ho
    match o with
    | .ds m => exact ⟨wf.nodup a m ho, fun k b hb => wf.valid a m k b ho hb⟩
    | .dsTS (some b) => exact wf.wrapper a b ho
    | .dsTS none => trivial
    | .col l => exact fun b hb => wf.elem a l b (Or.inl ho) hb
    | .colTS l => exact fun b hb => wf.elem a l b (Or.inr ho) hb
    | .lang _ => trivial
    | .slice _ => trivial
  · intro hg
    refine ⟨fun a m hm => (hg a _ hm).1, fun a b hb => hg a _ hb, fun a m k b hm hb => (hg a _ hm).2 k b hb, ?_⟩
    rintro a l b (hl | hl) hb
    · exact hg a _ hl b hb
    · exact hg a _ hl b hb

/-- Same type of object. -/
def SameKind : Obj → Obj → Prop
  | .ds _, .ds _ => True
  | .dsTS i, .dsTS j => i = j
  | .col _, .col _ => True
  | .colTS _, .colTS _ => True
  | .lang _, .lang _ => True
  | .slice _, .slice _ => True
  | _, _ => False

/-- Objects keep their type (and wrappers what they wrap), new ones may appear. -/
structure Ext' (h h' : Heap) : Prop where
  keep : ∀ (a : Addr) (o : Obj), h[a]? = some o → ∃ o', h'[a]? = some o' ∧ SameKind o o'

theorem Ext'.refl (h : Heap) : Ext' h h := ⟨fun _ o ho => ⟨o, ho, by cases o <;> simp [SameKind]⟩⟩

theorem SameKind.trans {a b c : Obj} (h1 : SameKind a b) (h2 : SameKind b c) : SameKind a c := by
  cases a <;> cases b <;> cases c <;> simp_all [SameKind]

theorem Ext'.trans {h1 h2 h3 : Heap} (e : Ext' h1 h2) (e' : Ext' h2 h3) : Ext' h1 h3 := by
  constructor
  intro a o ho
  obtain ⟨o', h', k⟩ := e.keep a o ho
  obtain ⟨o'', h'', k'⟩ := e'.keep a o' h'
  exact ⟨o'', h'', k.trans k'⟩

theorem Ext'.isDataset {h h' : Heap} (e : Ext' h h') {a : Addr} (hd : IsDataset h a) : IsDataset h' a := by
  rcases hd with ⟨m, hm⟩ | ⟨i, hi⟩
  · obtain ⟨o', h1, h2⟩ := e.keep a _ hm
    cases o' <;> simp [SameKind] at h2
    exact Or.inl ⟨_, h1⟩
  · obtain ⟨o', h1, h2⟩ := e.keep a _ hi
    cases o' <;> simp [SameKind] at h2
    exact Or.inr ⟨_, h1⟩

theorem Ext'.length {h h' : Heap} (e : Ext' h h') : h.length ≤ h'.length := by
  rcases Nat.eq_zero_or_pos h.length with hz | hz
  · omega
  · have hl : h.length - 1 < h.length := by omega
    obtain ⟨o', h1, _⟩ := e.keep (h.length - 1) _ (List.getElem?_eq_getElem hl)
    have := lt_of_getElem? h1
    omega

theorem Valid.grow {h h' : Heap} (e : Ext' h h') {v : Val} (g : Valid h v) : Valid h' v := by
  cases v with
  | ptr b => have := e.length; simp only [Valid] at g ⊢; omega
  | slice k b =>
    obtain ⟨l, hl⟩ := g
    obtain ⟨o', h1, h2⟩ := e.keep b _ hl
    cases o' <;> simp [SameKind] at h2
    exact ⟨_, h1⟩
  | int k n => exact g
  | _ => trivial

theorem Good.ext {h h' : Heap} (e : Ext' h h') {a : Addr} {o : Obj} (g : Good h a o) : Good h' a o := by
  match o, g with
  | .ds m, g => exact ⟨g.1, fun k b hb => (g.2 k b hb).grow e⟩
  | .dsTS (some b), g => exact ⟨g.1, e.isDataset g.2⟩
  | .dsTS none, _ => trivial
  | .col l, g => exact fun b hb => e.isDataset (g b hb)
  | .colTS l, g => exact fun b hb => e.isDataset (g b hb)
  | .lang _, _ => trivial
  | .slice _, _ => trivial

theorem ext_set {h : Heap} {t : Addr} {o o' : Obj} (ho : h[t]? = some o) (k : SameKind o o') : Ext' h (h.set t o') := by
  have hlt := lt_of_getElem? ho
  constructor
  intro a p hp
  rw [List.getElem?_set]
  by_cases e : t = a
  · subst e
    rw [ho] at hp; cases hp
    exact ⟨o', by rw [if_pos rfl, if_pos hlt], k⟩
  · exact ⟨p, by rw [if_neg e]; exact hp, by cases p <;> simp [SameKind]⟩

theorem ext_append (h : Heap) (o : List Obj) : Ext' h (h ++ o) := by
  constructor
  intro a p hp
  exact ⟨p, by rw [List.getElem?_append, if_pos (lt_of_getElem? hp)]; exact hp, by cases p <;> simp [SameKind]⟩

theorem wf_set {h : Heap} (wf : WF h) {t : Addr} {o o' : Obj} (ho : h[t]? = some o) (k : SameKind o o')
    (g : Good h t o') : WF (h.set t o') := by
  have e := ext_set ho k
  rw [wf_iff] at *
  intro a p hp
  rw [List.getElem?_set] at hp
  split at hp
  · rename_i hta
    subst hta
    rw [if_pos (lt_of_getElem? ho)] at hp
    cases hp
    exact g.ext e
  · exact (wf a p hp).ext e

theorem wf_append {h : Heap} (wf : WF h) {o : Obj} (g : Good h h.length o) : WF (h ++ [o]) := by
  have e := ext_append h [o]
  rw [wf_iff] at *
  intro a p hp
  rw [List.getElem?_append] at hp
  split at hp
  · exact (wf a p hp).ext e
  · rename_i hlt
    have : a - h.length < [o].length := lt_of_getElem? hp
    simp only [List.length_singleton] at this
    have ha : a = h.length := by omega
    subst ha
    simp at hp
    subst hp
    exact g.ext e

theorem wf_nil : WF [] := wf_iff.2 (by intro a o ho; simp at ho)

/-! ### Calls -/

theorem sameKind_col {h : Heap} {c : Addr} {l : List (Option Addr)} (hc : IsCollection h c l) (l' : List (Option Addr)) :
    ∃ o o', h[c]? = some o ∧ SameKind o o' ∧ setElems h c l' = h.set c o' ∧ (o' = .col l' ∨ o' = .colTS l') := by
  rcases hc with hc | hc
  · exact ⟨.col l, .col l', hc, trivial, by simp [setElems, hc], Or.inl rfl⟩
  · exact ⟨.colTS l, .colTS l', hc, trivial, by simp [setElems, hc], Or.inr rfl⟩

theorem setElems_ext {h : Heap} {c : Addr} {l : List (Option Addr)} (hc : IsCollection h c l) (l' : List (Option Addr)) :
    Ext' h (setElems h c l') := by
  obtain ⟨o, o', h1, h2, h3, _⟩ := sameKind_col hc l'
  rw [h3]; exact ext_set h1 h2

theorem setElems_wf {h : Heap} (wf : WF h) {c : Addr} {l l' : List (Option Addr)} (hc : IsCollection h c l)
    (hl : ∀ b : Addr, some b ∈ l' → IsDataset h b) : WF (setElems h c l') := by
  obtain ⟨o, o', h1, h2, h3, h4⟩ := sameKind_col hc l'
  rw [h3]
  refine wf_set wf h1 h2 ?_
  rcases h4 with rfl | rfl <;> exact hl

theorem setElems_elems {h : Heap} {c : Addr} {l : List (Option Addr)} (hc : IsCollection h c l) (l' : List (Option Addr)) :
    IsCollection (setElems h c l') c l' := by
  rcases hc with hc | hc
  · have := lt_of_getElem? hc
    left; simp only [setElems, hc, List.getElem?_set, if_true, this]
  · have := lt_of_getElem? hc
    right; simp only [setElems, hc, List.getElem?_set, if_true, this]

theorem mem_set_cases {m : AMap Val} {k : Str} {v : Val} {p : Str × Val} (hp : p ∈ m.set k v) : p = (k, v) ∨ p ∈ m := by
  induction m with
  | nil => simp [AMap.set] at hp; exact Or.inl hp
  | cons q m ih =>
    obtain ⟨a, b⟩ := q
    simp only [AMap.set] at hp
    split at hp
    · rcases List.mem_cons.1 hp with h | h
      · exact Or.inl h
      · exact Or.inr (by simp [h])
    · rcases List.mem_cons.1 hp with h | h
      · exact Or.inr (by simp [h])
      · rcases ih h with h | h
        · exact Or.inl h
        · exact Or.inr (by simp [h])

theorem mem_del_cases {m : AMap Val} {k : Str} {p : Str × Val} (hp : p ∈ m.del k) : p ∈ m := by
  induction m with
  | nil => simp [AMap.del] at hp
  | cons q m ih =>
    obtain ⟨a, b⟩ := q
    simp only [AMap.del] at hp
    split at hp
    · simp [ih hp]
    · rcases List.mem_cons.1 hp with h | h
      · simp [h]
      · simp [ih h]

theorem set_wf {h h' : Heap} (wf : WF h) {a : Addr} {k : Str} {v : Val} (hv : Valid h v) (e : set h a k v = .ok h') :
    WF h' ∧ Ext' h h' := by
  obtain ⟨t, m, _, hm, rfl⟩ := set_eq e
  refine ⟨wf_set wf hm trivial ⟨AMap.nodup_set (wf.nodup t m hm) k v, ?_⟩, ext_set hm trivial⟩
  intro k' b hb
  rcases mem_set_cases hb with h | h
  · cases h; exact hv
  · exact wf.valid t m k' b hm h

theorem del_wf {h h' : Heap} (wf : WF h) {a : Addr} {k : Str} (e : del h a k = .ok h') : WF h' ∧ Ext' h h' := by
  obtain ⟨t, m, _, hm, rfl⟩ := del_eq e
  exact ⟨wf_set wf hm trivial ⟨AMap.nodup_del (wf.nodup t m hm) k, fun k' b hb => wf.valid t m k' b hm (mem_del_cases hb)⟩, ext_set hm trivial⟩

end Xcore.Dataset
