import Verif.Proof.Page
import Verif.Proof.TemplateTotal

/-!
# When the page exists
-/

namespace Xcore.Page

open Xcore.Dataset Xcore.Template

variable {x : Ext} {lang : Option Language.Lang} {fs : Fields} {mode : Bool} {sc : List Doc} {ls : List Layer}

/-- An element that has an answer; `mode` tells which of the two conditions on counters holds. -/
def Fine (fs : Fields) (mode : Bool) (p : Param) : Prop := Answered fs p ∧ (mode = true → NoRow fs p) ∧ (mode = false → NoCounter p)

/-- Layers made of the data. -/
def Layers (fs : Fields) (mode : Bool) (ls : List Layer) : Prop := ∀ l ∈ ls, Within fs l.fields ∧ (mode = true → l.place ≠ .row)

/-- The datasets in a value are part of the data. -/
def Part (fs : Fields) : Data → Prop
  | .record gs => Within fs gs
  | .rows l => ∀ gs ∈ l, Within fs gs
  | _ => True

theorem lookup_part {gs : Fields} (w : Within fs gs) {k : Str} {d : Data} (e : gs.lookup k = some d) : Part fs d := by
  have hm := lookup_mem e
  cases d with
  | record hs => exact w.field hm
  | rows l => exact fun hs hh => w.row hm hh
  | _ => trivial

theorem follow_part : ∀ (segs : List Str) {gs : Fields} {d : Data} {row : Bool}, Within fs gs → follow gs segs = some (d, row) → Part fs d
  | [], gs, d, row, w, e => by cases e
  | [k], gs, d, row, w, e => by
    simp only [follow, Option.map_eq_some_iff, Prod.mk.injEq] at e
    obtain ⟨d', h1, rfl, _⟩ := e
    exact lookup_part w h1
  | k :: k2 :: rest, gs, d, row, w, e => by
    simp only [follow] at e
    split at e
    · rename_i hs hl
      exact follow_part (k2 :: rest) (lookup_part w hl : Within fs hs) e
    · rename_i l hl
      have hp : ∀ gs ∈ l, Within fs gs := lookup_part w hl
      split at e
      · rename_i i _
        split at e
        · rename_i r hr
          cases e
          exact hp r (List.mem_of_getElem? hr)
        · rename_i r hr _
          exact follow_part _ (hp r (List.mem_of_getElem? hr)) e
        · cases e
      · cases e
    · cases e

theorem counter_answers (o : Layers fs true ls) : ∃ r, counter ls = some r ∧ (r = none ∨ ∃ v row, r = some (.scalar v, row)) := by
  induction ls with
  | nil => exact ⟨none, rfl, Or.inl rfl⟩
  | cons l ls ih =>
    obtain ⟨gs, pl⟩ := l
    cases pl with
    | plain => exact ih fun l hl => o l (List.mem_cons_of_mem _ hl)
    | loop i => exact ⟨_, rfl, Or.inr ⟨_, _, rfl⟩⟩
    | row => exact absurd rfl ((o _ (List.mem_cons_self ..)).2 rfl)

/-- What a path of a fine element leads to. -/
theorem value_answers {p : Param} (hf : Fine fs mode p) (o : Layers fs mode ls) {path : Str} (hp : path ∈ paths p) :
    ∃ r, value ls path = some r ∧ ∀ d row, r = some (d, row) → Part fs d ∧ (mode = true → ∀ gs, d = .record gs → row = false) ∧
      ((∃ v, d = .scalar v) ∨ ∃ gs, Within fs gs ∧ follow gs (split 62 path) = some (d, row)) := by
  unfold value
  by_cases hc : path = b!".counter"
  · rw [if_pos hc]
    cases mode with
    | false => exact absurd (hc ▸ hp) (hf.2.2 rfl)
    | true =>
      obtain ⟨r, h1, h2⟩ := counter_answers o
      refine ⟨r, h1, fun d row e => ?_⟩
      rcases h2 with h2 | ⟨v, row', h2⟩
      · rw [h2] at e; cases e
      · rw [h2] at e; cases e; exact ⟨trivial, nofun, Or.inl ⟨v, rfl⟩⟩
  · rw [if_neg hc, if_neg ((hf.1.2.1 path hp).resolve_left hc)]
    refine ⟨_, rfl, fun d row e => ?_⟩
    obtain ⟨l, hl, e⟩ := List.exists_of_findSome?_eq_some e
    have hw := (o l hl).1
    refine ⟨follow_part _ hw e, fun hm gs hd => ?_, Or.inr ⟨_, hw, e⟩⟩
    subst hd
    cases row with
    | false => rfl
    | true => exact absurd e (hf.2.1 hm path hp _ _ hw)

/-- Nested documents have a text. -/
def Nested (x : Ext) (lang : Option Language.Lang) (fs : Fields) (mode : Bool) (sc : List Doc) : Prop :=
  ∀ sc', Calls sc sc' → ∀ ls, Layers fs mode ls → ∃ n out, page x lang n sc' ls = some out

theorem more {n m : Nat} (h : n ≤ m) : More (page x lang n) (page x lang m) := fun _ _ _ e => page_mono h e

variable {d : Doc} {up : List Doc} {p : Param}

theorem first_answers (hn : Nested x lang fs mode (d :: up)) (hp : p ∈ d.own) {names : List Str} (hv : ∀ v ∈ names, Names p v) (o : Layers fs mode ls) :
    ∃ n out, first (page x lang n) (d :: up) ls names = some out := by
  unfold first
  cases hf : names.findSome? (lookup (d :: up)) with
  | none => exact ⟨0, [], rfl⟩
  | some sc' =>
    obtain ⟨v, hm, e⟩ := List.exists_of_findSome?_eq_some hf
    exact hn sc' ⟨d, up, p, v, rfl, hp, hv v hm, e⟩ ls o

theorem rounds_answers (hn : Nested x lang fs mode (d :: up)) (hp : p ∈ d.own) {id : Str} {k : Nat} (hv : ∀ i, ∀ v ∈ rangeNames id i k, Names p v)
    (o : Layers fs mode ls) : ∀ (rs : List Fields) (i : Nat), (∀ gs ∈ rs, Within fs gs) → ∃ n out, rounds (page x lang n) (d :: up) ls id k i rs = some out
  | [], i, _ => ⟨0, [], rfl⟩
  | r :: rs, i, hw => by
    have o' : Layers fs mode (⟨r, .loop i⟩ :: ls) := by
      intro l hl
      rcases List.mem_cons.1 hl with rfl | hl
      · exact ⟨hw r (List.mem_cons_self ..), by simp⟩
      · exact o l hl
    obtain ⟨n1, a, h1⟩ := first_answers hn hp (hv i) o'
    obtain ⟨n2, b, h2⟩ := rounds_answers hn hp hv o rs (i + 1) fun gs hg => hw gs (List.mem_cons_of_mem _ hg)
    refine ⟨n1 + n2, a ++ b, ?_⟩
    rw [rounds, first_more (more (Nat.le_add_right ..)) h1, rounds_more (more (Nat.le_add_left ..)) h2]

theorem inner_layers {gs : Fields} {row : Bool} (w : Within fs gs) (hr : mode = true → row = false) (o : Layers fs mode ls) : Layers fs mode (inner gs row ls) := by
  intro l hl
  rcases List.mem_cons.1 hl with rfl | hl
  · refine ⟨w, fun hm => ?_⟩
    rw [hr hm]; simp
  · exact o l hl

theorem reference_answers (hn : Nested x lang fs mode (d :: up)) {s : Str} (hp : ⟨.reference, s⟩ ∈ d.own) (hf : Fine fs mode ⟨.reference, s⟩)
    (o : Layers fs mode ls) : ∃ n out, reference x (page x lang n) (d :: up) ls (split 58 s) = some out := by
  have one : ∀ {id : Str} {rest : List Str}, split 58 s = id :: rest → rest.length ≠ 2 → ∀ v ∈ [id], Names ⟨.reference, s⟩ v := by
    intro id rest e hl v hv
    rw [List.mem_singleton.1 hv]
    exact .reference e hl
  match hs : split 58 s with
  | [] => exact absurd hs (split_ne_nil' _ _)
  | [id, key] =>
    simp only [reference]
    by_cases hl : lookup (d :: up) id = none
    · exact ⟨0, [], by rw [if_pos hl]⟩
    · simp only [if_neg hl]
      obtain ⟨r, hr, hi⟩ := value_answers hf o (path := key) (by simp [paths, hs])
      rw [hr]
      split
      · rename_i heq; cases heq
      · rename_i gs row heq
        cases heq
        obtain ⟨h1, h2, _⟩ := hi _ _ rfl
        exact first_answers hn hp (one hs (by simp)) (inner_layers h1 (fun hm => h2 hm _ rfl) o)
      · exact first_answers hn hp (one hs (by simp)) o
  | [any, key, pre] =>
    simp only [reference]
    obtain ⟨r, hr, hi⟩ := value_answers hf o (path := key) (by simp [paths, hs])
    rw [hr]
    refine first_answers hn hp ?_ o
    intro v hv
    unfold named at hv
    have hpre : Names ⟨.reference, s⟩ pre := by
      have := Names.referenceValue (d := s) (any := any) (key := key) (pre := pre) (text := []) hs
      rwa [List.append_nil] at this
    split at hv
    · simp only [List.mem_cons, List.not_mem_nil, or_false] at hv
      rcases hv with rfl | rfl
      · exact .referenceValue hs
      · exact hpre
    · rw [List.mem_singleton.1 hv]; exact hpre
  | [id] =>
    simp only [reference]
    exact first_answers hn hp (one hs (by simp)) o
  | id :: a :: b :: c :: rest =>
    simp only [reference]
    exact first_answers hn hp (one hs (by simp)) o

theorem target_path {s key id : Str} (ht : Target s key id) : (split 58 s).take 1 = [key] := by
  rcases ht with ⟨e, _⟩ | ⟨rest, e⟩ <;> (unfold parts at e; rw [e]; rfl)

theorem range_answers (hn : Nested x lang fs mode (d :: up)) {s key id : Str} (hp : ⟨.range, s⟩ ∈ d.own) (hf : Fine fs mode ⟨.range, s⟩)
    (ht : Target s key id) (o : Layers fs mode ls) : ∃ n out, range (page x lang n) (d :: up) ls key id = some out := by
  unfold range
  by_cases hl : lookup (d :: up) id = none
  · exact ⟨0, [], by rw [if_pos hl]⟩
  · simp only [if_neg hl]
    obtain ⟨r, hr, hi⟩ := value_answers hf o (path := key) (by simp [paths, target_path ht])
    rw [hr]
    split
    · rename_i heq; cases heq
    · rename_i row rest _ heq
      cases heq
      exact rounds_answers hn hp (fun i v hv => .rangeItem ht hv) o _ _ (hi _ _ rfl).1
    · refine first_answers hn hp ?_ o
      intro v hv
      simp only [List.mem_cons, List.not_mem_nil, or_false] at hv
      rcases hv with rfl | rfl
      · exact .rangeNone ht
      · exact .range ht

theorem condition_answers (hn : Nested x lang fs mode (d :: up)) {s key id : Str} (hp : ⟨.condition, s⟩ ∈ d.own) (hf : Fine fs mode ⟨.condition, s⟩)
    (ht : Target s key id) (o : Layers fs mode ls) : ∃ n out, condition x (page x lang n) (d :: up) ls key id = some out := by
  have two : ∀ {t : Str}, ∀ v ∈ [id ++ t, id], (∃ u, u ≠ [] ∧ t = b!"." ++ u) → Names ⟨.condition, s⟩ v := by
    rintro t v hv ⟨u, hu, rfl⟩
    simp only [List.mem_cons, List.not_mem_nil, or_false] at hv
    rcases hv with rfl | rfl
    · rw [← List.append_assoc]; exact .conditionValue ht hu
    · exact .condition ht
  unfold condition
  obtain ⟨r, hr, hi⟩ := value_answers hf o (path := key) (by simp [paths, target_path ht])
  rw [hr]
  split
  · rename_i heq; cases heq
  · rename_i gs row heq
    cases heq
    obtain ⟨h1, h2, _⟩ := hi _ _ rfl
    by_cases hl : lookup (d :: up) id = none
    · exact ⟨0, [], by rw [if_pos hl]⟩
    · simp only [if_neg hl]
      exact first_answers hn hp (fun v hv => two v hv ⟨b!"array", by decide, rfl⟩) (inner_layers h1 (fun hm => h2 hm _ rfl) o)
  · rename_i v _ heq
    by_cases h0 : text x v = some []
    · simp only [if_pos h0]
      exact first_answers hn hp (fun v hv => two v hv ⟨b!"none", by decide, rfl⟩) o
    · simp only [if_neg h0]
      by_cases hl : lookup (d :: up) id = none
      · exact ⟨0, [], by rw [if_pos hl]⟩
      · simp only [if_neg hl]
        refine first_answers hn hp ?_ o
        intro w hw
        unfold named at hw
        split at hw
        · rename_i t htx
          exact two (t := b!"." ++ t) w (by simpa [List.append_assoc] using hw) ⟨t, fun e => h0 (by rw [htx, e]), rfl⟩
        · rw [List.mem_singleton.1 hw]; exact .condition ht

theorem element_answers (hn : Nested x lang fs mode (d :: up)) (hp : p ∈ d.own) (hf : Fine fs mode p) (o : Layers fs mode ls) :
    ∃ n out, element x lang (page x lang n) (d :: up) ls p = some out := by
  obtain ⟨k, s⟩ := p
  have hk := hf.1.1
  cases k with
  | string => exact ⟨0, _, rfl⟩
  | comment => exact ⟨0, _, rfl⟩
  | language => exact ⟨0, _, rfl⟩
  | «variable» =>
    simp only [element]
    obtain ⟨r, hr, hi⟩ := value_answers hf o (path := s) (by simp [paths])
    rw [hr]
    refine ⟨0, ?_⟩
    cases r with
    | none => exact ⟨_, rfl⟩
    | some q =>
      obtain ⟨dd, row⟩ := q
      rcases (hi _ _ rfl).2.2 with ⟨v, rfl⟩ | ⟨gs, hw, e⟩
      · exact ⟨_, rfl⟩
      · obtain ⟨v, rfl⟩ := hf.1.2.2 rfl gs dd row hw e
        exact ⟨_, rfl⟩
  | reference => exact reference_answers hn hp hf o
  | range =>
    simp only [element]
    split
    · rename_i hs; exact absurd hs (split_ne_nil' _ _)
    · rename_i key hs; exact range_answers hn hp hf (Or.inl ⟨hs, rfl⟩) o
    · rename_i key id rest hs; exact range_answers hn hp hf (Or.inr ⟨rest, hs⟩) o
  | condition =>
    simp only [element]
    split
    · rename_i hs; exact absurd hs (split_ne_nil' _ _)
    · rename_i key hs; exact condition_answers hn hp hf (Or.inl ⟨hs, rfl⟩) o
    · rename_i key id rest hs; exact condition_answers hn hp hf (Or.inr ⟨rest, hs⟩) o
  | _ => simp at hk

theorem elements_answer (hn : Nested x lang fs mode (d :: up)) (o : Layers fs mode ls) : ∀ (l : List Param), (∀ p ∈ l, p ∈ d.own ∧ Fine fs mode p) →
    ∃ n out, elements (element x lang (page x lang n) (d :: up) ls) l = some out
  | [], _ => ⟨0, [], rfl⟩
  | p :: l, hl => by
    obtain ⟨n1, a, h1⟩ := element_answers hn (hl p (List.mem_cons_self ..)).1 (hl p (List.mem_cons_self ..)).2 o
    obtain ⟨n2, b, h2⟩ := elements_answer hn o l fun q hq => hl q (List.mem_cons_of_mem _ hq)
    refine ⟨n1 + n2, a ++ b, ?_⟩
    rw [elements, element_more (more (Nat.le_add_right ..)) h1, elements_more (more (Nat.le_add_left ..)) h2]

theorem page_answers (hacc : Acc (fun a b => Calls b a) sc) : (∀ e ∈ sc, e.All (Fine fs mode)) → ∀ ls, Layers fs mode ls →
    ∃ n out, page x lang n sc ls = some out := by
  induction hacc with
  | intro sc _ ih =>
    intro hall ls o
    match sc, ih, hall with
    | [], _, _ => exact ⟨1, [], rfl⟩
    | d :: up, ih, hall =>
      obtain ⟨n, out, e⟩ := elements_answer (x := x) (lang := lang) (fs := fs) (mode := mode) (d := d) (up := up) (ls := ls)
        (fun sc' hc ls' o' => ih sc' hc (by
          obtain ⟨_, _, _, v, he, _, _, hv⟩ := hc
          cases he
          exact (lookup_all hall hv).2) ls' o') o d.own (fun p hp => ⟨hp, own_all (hall d (List.mem_cons_self ..)) p hp⟩)
      exact ⟨n + 1, out, e⟩

theorem all_and {P Q R : Param → Prop} (h : ∀ p, P p → Q p → R p) : ∀ {d : Doc}, d.All P → d.All Q → d.All R
  | .nil, _, _ => trivial
  | .elem p _, a, b => ⟨h p a.1 b.1, all_and h a.2 b.2⟩
  | .box _ _ _, a, b => ⟨all_and h a.1 b.1, all_and h a.2 b.2⟩

theorem render_answers (x : Ext) {d : Doc} (hacc : Acc (fun a b => Calls b a) [d]) (ha : d.All (Answered fs)) (hc : d.All NoCounter ∨ d.All (NoRow fs)) :
    ∃ depth out, render x depth d fs = some out := by
  have key : ∀ mode, d.All (Fine fs mode) → ∃ depth out, render x depth d fs = some out := by
    intro mode hf
    refine page_answers (mode := mode) hacc (by intro e he; rw [List.mem_singleton.1 he]; exact hf) _ ?_
    intro l hl
    rw [List.mem_singleton.1 hl]
    exact ⟨.all, by simp⟩
  rcases hc with hc | hc
  · exact key false (all_and (fun p a b => ⟨a, by simp, fun _ => b⟩) ha hc)
  · exact key true (all_and (fun p a b => ⟨a, fun _ => b, by simp⟩) ha hc)

end Xcore.Page
