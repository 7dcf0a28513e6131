import Verif.Proof.DatasetBuild
import Verif.Proof.DatasetStep

/-!
# Lookups in a dataset built from a Go map
-/

namespace Xcore.Dataset

theorem Mirrors.of_map {h : Heap} {m : List (Str × Raw)} {v : Val} (mi : Mirrors h (.map m) v) :
    ∃ (a : Addr) (m' : AMap Val), v = .ptr a ∧ h[a]? = some (.ds m') ∧ (∀ k, (∃ r, (k, r) ∈ m) ↔ ∃ v, m'.get k = some v) ∧
      ∀ k r v, (k, r) ∈ m → m'.get k = some v → Mirrors h r v := by
  cases mi with | map h1 h2 h3 => exact ⟨_, _, rfl, h1, h2, h3⟩

theorem Mirrors.of_maps {h : Heap} {l : List (List (Str × Raw))} {v : Val} (mi : Mirrors h (.maps l) v) :
    ∃ (c : Addr) (es : List (Option Addr)), v = .ptr c ∧ h[c]? = some (.col es) ∧ es.length = l.length ∧
      ∀ (i : Nat) (m : List (Str × Raw)) (e : Option Addr), l[i]? = some m → es[i]? = some e → Mirrors h (.map m) (asVal e) := by
  cases mi with | maps h1 h2 h3 => exact ⟨_, _, rfl, h1, h2, h3⟩

theorem Mirrors.of_anys {h : Heap} {l : List Raw} {v : Val} (mi : Mirrors h (.anys l) v) : Mirrors h (.maps (onlyMaps l)) v := by
  cases mi with | anys h1 => exact h1

/-- The entry for a key of the source map. -/
theorem Mirrors.entry {h : Heap} {m : List (Str × Raw)} {a : Addr} (mi : Mirrors h (.map m) (.ptr a)) {k : Str} {r : Raw} (hk : (k, r) ∈ m) :
    ∃ v, Entry h a k v ∧ Mirrors h r v := by
  obtain ⟨a', m', e, h1, h2, h3⟩ := mi.of_map
  cases e
  obtain ⟨v, hv⟩ := (h2 k).1 ⟨r, hk⟩
  exact ⟨v, ⟨a, m', .plain h1, h1, hv⟩, h3 k r v hk hv⟩

theorem Mirrors.of_entry {h : Heap} {m : List (Str × Raw)} {a : Addr} (mi : Mirrors h (.map m) (.ptr a)) {k : Str} {v : Val} (e : Entry h a k v) :
    ∃ r, (k, r) ∈ m ∧ Mirrors h r v := by
  obtain ⟨a', m', e', h1, h2, h3⟩ := mi.of_map
  cases e'
  obtain ⟨t, m'', w, ht, hv⟩ := e
  cases w with
  | wrapper hb => rw [h1] at hb; cases hb
  | plain =>
    rw [h1] at ht; cases ht
    obtain ⟨r, hr⟩ := (h2 k).2 ⟨v, hv⟩
    exact ⟨r, hr, h3 k r v hr hv⟩

/-- The element for an item of a source slice. -/
theorem Mirrors.item {h : Heap} {l : List (List (Str × Raw))} {v : Val} (mi : Mirrors h (.maps l) v) {i : Nat} {m : List (Str × Raw)} (hm : l[i]? = some m) :
    ∃ c es b, v = .ptr c ∧ IsCollection h c es ∧ es[i]? = some (some b) ∧ Mirrors h (.map m) (.ptr b) := by
  obtain ⟨c, es, rfl, h1, h2, h3⟩ := mi.of_maps
  have hi : i < es.length := by rw [h2]; exact lt_of_getElem? hm
  have he := List.getElem?_eq_getElem hi
  have := h3 i m _ hm he
  cases e : es[i] with
  | none =>
    rw [e] at this
    obtain ⟨_, _, h, _⟩ := this.of_map; cases h
  | some b => rw [e] at this he; exact ⟨c, es, b, rfl, Or.inl h1, he, this⟩

/-- What a path finds in the source map, it leads to in the dataset. -/
theorem finds_leads {h : Heap} {m : List (Str × Raw)} {segs : List Str} {r : Raw} (f : Finds m segs r) :
    ∀ {a : Addr}, Mirrors h (.map m) (.ptr a) → ∃ v, Leads h a segs v ∧ Mirrors h r v := by
  have coll : ∀ {m : List (Str × Raw)} {a : Addr} {k : Str} {l : List (List (Str × Raw))}, Mirrors h (.map m) (.ptr a) →
      ((k, .maps l) ∈ m ∨ ∃ l', (k, .anys l') ∈ m ∧ l = onlyMaps l') → ∃ v, Entry h a k v ∧ Mirrors h (.maps l) v := by
    intro m a k l mi hk
    rcases hk with hk | ⟨l', hk, rfl⟩
    · exact mi.entry hk
    · obtain ⟨v, h1, h2⟩ := mi.entry hk
      exact ⟨v, h1, h2.of_anys⟩
  induction f with
  | key hk => intro a mi; obtain ⟨v, h1, h2⟩ := mi.entry hk; exact ⟨v, .entry h1, h2⟩
  | map hk _ ih =>
    intro a mi
    obtain ⟨v, h1, h2⟩ := mi.entry hk
    obtain ⟨b, m'', rfl, h3, _⟩ := h2.of_map
    obtain ⟨w, h4, h5⟩ := ih h2
    exact ⟨w, .dataset h1 (Or.inl ⟨_, h3⟩) h4, h5⟩
  | item hk hi hm =>
    intro a mi
    obtain ⟨v, h1, h2⟩ := coll mi hk
    obtain ⟨c, es, b, rfl, h3, h4, h5⟩ := h2.item hm
    exact ⟨_, .element h1 h3 hi h4, h5⟩
  | through hk hi hm _ ih =>
    intro a mi
    obtain ⟨v, h1, h2⟩ := coll mi hk
    obtain ⟨c, es, b, rfl, h3, h4, h5⟩ := h2.item hm
    obtain ⟨w, h6, h7⟩ := ih h5
    exact ⟨w, .through h1 h3 hi h4 h6, h7⟩

theorem mem_onlyMaps {l : List Raw} {m : List (Str × Raw)} (h : m ∈ onlyMaps l) : Raw.map m ∈ l := by
  induction l with
  | nil => cases h
  | cons r l ih =>
    cases r with
    | map m' =>
      rcases List.mem_cons.1 h with rfl | h
      · simp
      · simp [ih h]
    | _ => simp only [onlyMaps] at h; simp [ih h]

/-- Conversely, in a source without path keys and without datasets as values. -/
theorem leads_finds {h : Heap} {segs : List Str} {v : Val} {a : Addr} (le : Leads h a segs v) :
    ∀ {m : List (Str × Raw)}, Mirrors h (.map m) (.ptr a) → (∀ k, HasKey k (.map m) → 62 ∉ k) → (∀ v, Occurs v (.map m) → Plain h v) →
      ∃ r, Finds m segs r ∧ Mirrors h r v := by
  have coll : ∀ {m : List (Str × Raw)} {a c : Addr} {k : Str} {l : List (Option Addr)} {i : Nat} {e : Addr}, Mirrors h (.map m) (.ptr a) → (∀ v, Occurs v (.map m) → Plain h v) →
      Entry h a k (.ptr c) → IsCollection h c l → l[i]? = some (some e) →
      ∃ l' m', ((k, .maps l') ∈ m ∨ ∃ l'', (k, .anys l'') ∈ m ∧ l' = onlyMaps l'') ∧ l'[i]? = some m' ∧ Mirrors h (.map m') (.ptr e) ∧
        (∀ v, Occurs v (.map m') → Occurs v (.map m)) ∧ ∀ k, HasKey k (.map m') → HasKey k (.map m) := by
    intro m a c k l i e mi hp he hl hi
    have get : ∀ {l' : List (List (Str × Raw))}, Mirrors h (.maps l') (.ptr c) → ∃ m', l'[i]? = some m' ∧ Mirrors h (.map m') (.ptr e) := by
      intro l' h2
      obtain ⟨c', es, e', h3, h4, h5⟩ := h2.of_maps
      cases e'
      have : es = l := by rcases hl with hl | hl <;> rw [h3] at hl <;> cases hl; rfl
      subst this
      have hi' : i < l'.length := by rw [← h4]; exact lt_of_getElem? hi
      exact ⟨_, List.getElem?_eq_getElem hi', h5 i _ _ (List.getElem?_eq_getElem hi') hi⟩
    obtain ⟨r, h1, h2⟩ := mi.of_entry he
    cases r with
    | val v =>
      cases h2
      exact absurd hl ((hp _ (.map h1 .val) c rfl).2 l)
    | map m1 =>
      obtain ⟨_, _, e', h3, _⟩ := h2.of_map
      cases e'
      rcases hl with hl | hl <;> rw [h3] at hl <;> cases hl
    | maps l' =>
      obtain ⟨m', h3, h4⟩ := get h2
      have hm := List.mem_of_getElem? h3
      refine ⟨l', m', Or.inl h1, h3, h4, fun v hv => ?_, fun k hk => .inMap h1 (.inMaps hm hk)⟩
      cases hv with | map h5 h6 => exact .map h1 (.maps hm h5 h6)
    | anys l' =>
      obtain ⟨m', h3, h4⟩ := get h2.of_anys
      have hm := mem_onlyMaps (List.mem_of_getElem? h3)
      exact ⟨_, m', Or.inr ⟨l', h1, rfl⟩, h3, h4, fun v hv => .map h1 (.anys hm hv), fun k hk => .inMap h1 (.inAnys hm hk)⟩
  induction le with
  | entry he => intro m mi _ _; obtain ⟨r, h1, h2⟩ := mi.of_entry he; exact ⟨r, .key h1, h2⟩
  | @dataset a b s s2 rest v he hd _ ih =>
    intro m mi hk hp
    obtain ⟨r, h1, h2⟩ := mi.of_entry he
    cases r with
    | val v => cases h2; exact absurd hd (hp _ (.map h1 .val) b rfl).1
    | map m1 =>
      obtain ⟨r, h3, h4⟩ := ih h2 (fun k h => hk k (.inMap h1 h)) (fun v h => hp v (.map h1 h))
      exact ⟨r, .map h1 h3, h4⟩
    | maps l =>
      obtain ⟨c, es, e, h3, _⟩ := h2.of_maps
      cases e
      exact absurd (Or.inl h3) (isDataset_not_collection hd)
    | anys l =>
      obtain ⟨c, es, e, h3, _⟩ := h2.of_anys.of_maps
      cases e
      exact absurd (Or.inl h3) (isDataset_not_collection hd)
  | element he hl hi hg =>
    intro m mi hk hp
    obtain ⟨l', m', h1, h2, h3, _⟩ := coll mi hp he hl hg
    exact ⟨_, .item h1 hi h2, h3⟩
  | through he hl hi hg _ ih =>
    intro m mi hk hp
    obtain ⟨l', m', h1, h2, h3, h4, h5⟩ := coll mi hp he hl hg
    obtain ⟨r, h6, h7⟩ := ih h3 (fun k h => hk k (h5 k h)) (fun v h => hp v (h4 v h))
    exact ⟨r, .through h1 hi h2 h6, h7⟩
  | literal _ _ he =>
    intro m mi hk hp
    obtain ⟨r, h1, _⟩ := mi.of_entry he
    exact absurd (sep_mem_join _ _ _) (hk _ (.here h1))

theorem plain_grow {h h' : Heap} (g : Grows h h') {v : Val} (hv : Valid h v) (hp : Plain h v) : Plain h' v := by
  rintro a rfl
  have : h'[a]? = h[a]? := g.get_lt hv
  obtain ⟨h1, h2⟩ := hp a rfl
  unfold IsDataset IsCollection at *
  rw [this]; exact ⟨h1, h2⟩

theorem newXDataset_mirrors {h : Heap} {m : List (Str × Raw)} (g : GoValue (.map m)) :
    Grows h (newXDataset h m).1 ∧ Mirrors (newXDataset h m).1 (.map m) (.ptr (newXDataset h m).2) := by
  have := buildVal_mirrors (.map m) h g
  simpa only [buildVal, newXDataset] using this

end Xcore.Dataset
