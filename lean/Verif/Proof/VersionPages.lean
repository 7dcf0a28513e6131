import Verif.Spec.VersionPages
import Verif.Proof.PageTotal
import Verif.Proof.V1.Page
import Verif.Proof.V1.TemplateBuild

/-! # Both versions render the same page -/

namespace Xcore.Versions

open Xcore.Template (Kind Param Doc Inside Inward Names lookup Target parts rangeNames)
open Xcore.Dataset (Ext Val fmtScalar)
open Xcore.Page (Data Fields Layer Within follow paths)

variable {fs : Fields}

/-! ## Looking up -/

theorem lookup_old (k : Str) : ∀ gs : Fields, (oldFields gs).lookup k = (gs.lookup k).map oldData
  | [] => rfl
  | (k', d) :: gs => by
    simp only [oldFields, List.lookup_cons]
    cases k == k' with
    | true => rfl
    | false => exact lookup_old k gs

theorem rows_old : ∀ (l : List Fields) (i : Nat), (oldRows l)[i]? = (l[i]?).map fun r => some (oldFields r)
  | [], i => by simp [oldRows]
  | r :: rs, 0 => rfl
  | r :: rs, i + 1 => by simpa [oldRows] using rows_old rs i

theorem rows_length : ∀ l : List Fields, (oldRows l).length = l.length
  | [] => rfl
  | r :: rs => by simp [oldRows, rows_length rs]

theorem no_joined (hw : WellNamed fs) {gs : Fields} (w : Within fs gs) (k k2 : Str) (rest : List Str) :
    gs.lookup (join b!">" (k :: k2 :: rest)) = none := by
  cases e : gs.lookup (join b!">" (k :: k2 :: rest)) with
  | none => rfl
  | some d => exact absurd (by simp [join]) (hw gs w _ d (Page.lookup_mem e))

theorem follow_old (hw : WellNamed fs) : ∀ (segs : List Str) {gs : Fields}, Within fs gs →
    V1.Page.follow (oldFields gs) segs = (follow gs segs).map fun r => oldData r.1
  | [], gs, w => rfl
  | [k], gs, w => by simp [V1.Page.follow, follow, lookup_old, Function.comp_def]
  | k :: k2 :: rest, gs, w => by
    simp only [V1.Page.follow, follow, lookup_old]
    cases e : gs.lookup k with
    | none => rfl
    | some d =>
      cases d with
      | scalar v => simp only [Option.map_some, oldData, no_joined hw w k k2 rest, Option.map_none]
      | table l => simp only [Option.map_some, oldData, no_joined hw w k k2 rest, Option.map_none]
      | record hs => exact follow_old hw (k2 :: rest) (Page.lookup_part w e : Within fs hs)
      | rows l =>
        have hp : ∀ gs ∈ l, Within fs gs := Page.lookup_part w e
        simp only [Option.map_some, oldData]
        cases atoi k2 with
        | none => rfl
        | some z =>
          cases z with
          | negSucc _ => rfl
          | ofNat i =>
            simp only [rows_old]
            cases er : l[i]? with
            | none => rfl
            | some row =>
              cases rest with
              | nil => rfl
              | cons k3 rest => exact follow_old hw (k3 :: rest) (hp row (List.mem_of_getElem? er))

/-- The layers as data of version 1. -/
def oldLayers (ls : List Layer) : List (Option V1.Page.Fields) := ls.map fun l => some (oldFields l.fields)

/-- What is found, as an answer of version 1. -/
def oldAnswer : Option (Data × Bool) → V1.Page.Answer
  | none => .absent
  | some (d, _) => .value (oldData d)

/-- The layers are made of the data, the last one is the data. -/
structure Over (fs : Fields) (ls : List Layer) : Prop where
  within : ∀ l ∈ ls, Within fs l.fields
  root : ∃ l ∈ ls, l.fields = fs

theorem Over.push {ls : List Layer} (o : Over fs ls) {l : Layer} (w : Within fs l.fields) : Over fs (l :: ls) := by
  refine ⟨fun m hm => ?_, ?_⟩
  · rcases List.mem_cons.1 hm with rfl | hm
    · exact w
    · exact o.within m hm
  · obtain ⟨m, hm, e⟩ := o.root
    exact ⟨m, List.mem_cons_of_mem _ hm, e⟩

theorem value_old (hw : WellNamed fs) (path : Str) : ∀ {ls : List Layer}, (∀ l ∈ ls, Within fs l.fields) →
    V1.Page.value (oldLayers ls) path = oldAnswer (ls.findSome? fun l => follow l.fields (split 62 path))
  | [], _ => rfl
  | l :: ls, h => by
    simp only [oldLayers, List.map_cons, V1.Page.value, List.findSome?_cons, follow_old hw _ (h l (List.mem_cons_self ..))]
    cases follow l.fields (split 62 path) with
    | none => exact value_old hw path fun m hm => h m (List.mem_cons_of_mem _ hm)
    | some r => rfl

theorem value_new {path : Str} (hc : b!".counter" ∉ split 62 path) (ls : List Layer) :
    Page.value ls path = some (ls.findSome? fun l => follow l.fields (split 62 path)) := by
  unfold Page.value
  rw [if_neg, if_neg hc]
  rintro rfl
  exact hc (by rw [Page.split_counter]; exact List.mem_cons_self)

/-- What is found at a path, in both versions. -/
theorem found (hw : WellNamed fs) {ls : List Layer} (o : Over fs ls) {path : Str} (hc : b!".counter" ∉ split 62 path) :
    ∃ r, Page.value ls path = some r ∧ V1.Page.value (oldLayers ls) path = oldAnswer r ∧
      (∀ d row, r = some (d, row) → Page.Part fs d ∧ ∃ gs, Within fs gs ∧ follow gs (split 62 path) = some (d, row)) ∧
      (follow fs (split 62 path) ≠ none → r ≠ none) := by
  refine ⟨_, value_new hc ls, value_old hw path o.within, fun d row e => ?_, fun hf hn => ?_⟩
  · obtain ⟨l, hl, e⟩ := List.exists_of_findSome?_eq_some e
    exact ⟨Page.follow_part _ (o.within l hl) e, _, o.within l hl, e⟩
  · obtain ⟨l, hl, e⟩ := o.root
    exact hf (e ▸ List.findSome?_eq_none_iff.1 hn l hl)

/-! ## Rendering -/

theorem text_scalar {x : Ext} {v : Val} (h : v ≠ .nil) : V1.Page.text x (.scalar v) = fmtScalar x v := by
  cases v <;> first | exact absurd rfl h | simp only [V1.Page.text, V1.Page.shown]

theorem text_old {x : Ext} {v : Val} {row : Bool} : Page.text x (some (.scalar v, row)) = some (V1.Page.text x (.scalar v)) := by
  unfold Page.text
  by_cases h : v = .nil
  · subst h; rfl
  · simp only [if_neg h, text_scalar h]


section
variable {x : Ext} {lang : Option Xcore.Language.Lang} {d : Doc}

/-- Boxes of both versions, `n` deep, give the same text. -/
def Alike (x : Ext) (lang : Option Xcore.Language.Lang) (d : Doc) (fs : Fields) (n : Nat) : Prop :=
  ∀ e up, Inside d (e :: up) → V1.Template.nesting e < n → ∀ ls, Over fs ls →
    ∃ s, Page.page x lang n (e :: up) ls = some s ∧ V1.Page.page x (lang.map oldTable) n e (some (oldLayers ls)) = .text s

variable {n : Nat} {e : Doc} {up : List Doc} {p : Param}

theorem find_here (hi : Inward d) (hin : Inside d (e :: up)) (hp : p ∈ e.own) {v : Str} (hv : Names p v) :
    lookup (e :: up) v = (e.find v).map fun b => b :: e :: up := by
  rw [lookup]
  cases h : e.find v with
  | none => exact hi e up hin p hp v hv h
  | some b => rfl

theorem names_here (hi : Inward d) (hin : Inside d (e :: up)) (hp : p ∈ e.own) : ∀ {names : List Str}, (∀ v ∈ names, Names p v) →
    names.findSome? (lookup (e :: up)) = (names.findSome? e.find).map fun b => b :: e :: up
  | [], _ => rfl
  | v :: vs, hv => by
    simp only [List.findSome?_cons, find_here hi hin hp (hv v (List.mem_cons_self ..))]
    cases e.find v with
    | some b => rfl
    | none => exact names_here hi hin hp fun w hw => hv w (List.mem_cons_of_mem _ hw)

variable (ha : Alike x lang d fs n) (hi : Inward d) (hin : Inside d (e :: up)) (hn : V1.Template.nesting e < n + 1) (hp : p ∈ e.own)
include ha hi hin hn hp

theorem first_alike {names : List Str} (hv : ∀ v ∈ names, Names p v) {ls : List Layer} (o : Over fs ls) :
    ∃ s, Page.first (Page.page x lang n) (e :: up) ls names = some s ∧
      V1.Page.first (V1.Page.page x (lang.map oldTable) n) e names (some (oldLayers ls)) = .text s := by
  simp only [Page.first, V1.Page.first, names_here hi hin hp hv]
  cases h : names.findSome? e.find with
  | none => exact ⟨[], rfl, rfl⟩
  | some b =>
    obtain ⟨v, _, hb⟩ := List.exists_of_findSome?_eq_some h
    have := V1.Template.find_nesting hb
    exact ha b (e :: up) (hin.box hb) (by omega) ls o

theorem rounds_alike {id : Str} {k : Nat} (hv : ∀ i, ∀ v ∈ rangeNames id i k, Names p v) {ls : List Layer} (o : Over fs ls) :
    ∀ (rs : List Fields) (i : Nat), (∀ gs ∈ rs, Within fs gs) →
    ∃ s, Page.rounds (Page.page x lang n) (e :: up) ls id k i rs = some s ∧
      V1.Page.rounds (V1.Page.page x (lang.map oldTable) n) e id k (oldLayers ls) i (oldRows rs) = .text s
  | [], i, _ => ⟨[], rfl, rfl⟩
  | r :: rs, i, h => by
    obtain ⟨s1, a1, b1⟩ := first_alike ha hi hin hn hp (hv i) (o.push (l := ⟨r, .loop i⟩) (h r (List.mem_cons_self ..)))
    obtain ⟨s2, a2, b2⟩ := rounds_alike hv o rs (i + 1) fun g hg => h g (List.mem_cons_of_mem _ hg)
    refine ⟨s1 ++ s2, ?_, ?_⟩
    · rw [Page.rounds, a1, a2]
    · rw [oldRows, V1.Page.rounds]
      rw [show (some (oldFields r) :: oldLayers ls) = oldLayers (⟨r, .loop i⟩ :: ls) from rfl, b1, b2]
      rfl

theorem reference_alike (hw : WellNamed fs) {t : Str} (ht : p = ⟨.reference, t⟩) (hpo : Portable x fs p) {ls : List Layer} (o : Over fs ls) :
    ∃ s, Page.reference x (Page.page x lang n) (e :: up) ls (split 58 t) = some s ∧
      V1.Page.reference x (V1.Page.page x (lang.map oldTable) n) e (some (oldLayers ls)) (split 58 t) = .text s := by
  subst ht
  have one : ∀ {id : Str} {rest : List Str}, split 58 t = id :: rest → rest.length ≠ 2 → ∀ v ∈ [id], Names ⟨.reference, t⟩ v := by
    intro id rest e hl v hv
    rw [List.mem_singleton.1 hv]
    exact .reference e hl
  match hs : split 58 t with
  | [] => exact absurd hs (Template.split_ne_nil' _ _)
  | [id, key] =>
    simp only [Page.reference, V1.Page.reference]
    have hf := find_here hi hin hp (one hs (by simp) id (List.mem_cons_self ..))
    cases hb : e.find id with
    | none => exact ⟨[], by rw [if_pos (by rw [hf, hb]; rfl)], by rw [if_pos rfl]⟩
    | some b =>
      rw [if_neg (by rw [hf, hb]; simp), if_neg (by simp)]
      obtain ⟨r, h1, h2, h3, _⟩ := found hw o (hpo.1 key (by simp [paths, hs]))
      rw [h1]
      simp only [h2]
      match r, h3 with
      | none, _ => exact first_alike ha hi hin hn hp (one hs (by simp)) o
      | some (.scalar _, _), _ => exact first_alike ha hi hin hn hp (one hs (by simp)) o
      | some (.table _, _), _ => exact first_alike ha hi hin hn hp (one hs (by simp)) o
      | some (.rows _, _), _ => exact first_alike ha hi hin hn hp (one hs (by simp)) o
      | some (.record gs, row), h3 =>
        exact first_alike ha hi hin hn hp (one hs (by simp)) (o.push (l := ⟨gs, if row then .row else .plain⟩) (h3 _ _ rfl).1)
  | [any, key, pre] =>
    have hpre : Names ⟨.reference, t⟩ pre := by
      have := Names.referenceValue (d := t) (any := any) (key := key) (pre := pre) (text := []) hs
      rwa [List.append_nil] at this
    simp only [Page.reference, V1.Page.reference]
    obtain ⟨r, h1, h2, h3, _⟩ := found hw o (hpo.1 key (by simp [paths, hs]))
    rw [h1]
    simp only [h2]
    match r, h3 with
    | none, _ =>
      have hv : ∀ v ∈ [pre], Names ⟨.reference, t⟩ v := fun v hv => by rw [List.mem_singleton.1 hv]; exact hpre
      obtain ⟨s, a, b⟩ := first_alike ha hi hin hn hp hv o
      refine ⟨s, ?_, b⟩
      rw [← a]
      simp only [Page.named, Page.text, List.append_nil, Page.first, List.findSome?_cons, List.findSome?_nil]
      cases lookup (e :: up) pre <;> rfl
    | some (dd, row), h3 =>
      obtain ⟨_, gs, w, ef⟩ := h3 _ _ rfl
      obtain ⟨v, rfl⟩ := hpo.2 any key pre hs gs dd row w ef
      have hv : ∀ w ∈ [pre ++ V1.Page.text x (.scalar v), pre], Names ⟨.reference, t⟩ w := by
        intro w hw
        simp only [List.mem_cons, List.not_mem_nil, or_false] at hw
        rcases hw with rfl | rfl
        · exact .referenceValue hs
        · exact hpre
      obtain ⟨s, a, b⟩ := first_alike ha hi hin hn hp hv o
      refine ⟨s, ?_, b⟩
      rw [← a]
      simp only [Page.named, text_old]
  | [id] =>
    simp only [Page.reference, V1.Page.reference]
    exact first_alike ha hi hin hn hp (one hs (by simp)) o
  | id :: a :: b :: c :: rest =>
    simp only [Page.reference, V1.Page.reference]
    exact first_alike ha hi hin hn hp (one hs (by simp)) o

theorem range_alike (hw : WellNamed fs) {t key id : Str} (ht : p = ⟨.range, t⟩) (htg : Target t key id) (hpo : Portable x fs p) {ls : List Layer}
    (o : Over fs ls) : ∃ s, Page.range (Page.page x lang n) (e :: up) ls key id = some s ∧
      V1.Page.range (V1.Page.page x (lang.map oldTable) n) e (some (oldLayers ls)) key id = .text s := by
  subst ht
  have hk : key ∈ paths ⟨.range, t⟩ := by simp [paths, Page.target_path htg]
  simp only [Page.range, V1.Page.range]
  have hf := find_here hi hin hp (.range htg)
  cases hb : e.find id with
  | none => exact ⟨[], by rw [if_pos (by rw [hf, hb]; rfl)], by rw [if_pos rfl]⟩
  | some b =>
    rw [if_neg (by rw [hf, hb]; simp), if_neg (by simp)]
    obtain ⟨r, h1, h2, h3, _⟩ := found hw o (hpo.1 key hk)
    rw [h1]
    simp only [h2]
    match r, h3 with
    | none, _ =>
      refine first_alike ha hi hin hn hp ?_ o
      intro v hv
      simp only [List.mem_cons, List.not_mem_nil, or_false] at hv
      rcases hv with rfl | rfl
      · exact .rangeNone htg
      · exact .range htg
    | some (dd, row), h3 =>
      obtain ⟨hpt, gs, w, ef⟩ := h3 _ _ rfl
      obtain ⟨r, rs, rfl⟩ := hpo.2 key hk gs dd row w ef
      obtain ⟨s, a, b⟩ := rounds_alike ha hi hin hn hp (k := rs.length + 1) (fun i v hv => .rangeItem htg hv) o (r :: rs) 0 hpt
      refine ⟨s, a, ?_⟩
      rw [← b]
      simp only [oldAnswer, oldData, rows_length, List.length_cons]

theorem condition_alike (hw : WellNamed fs) {t key id : Str} (ht : p = ⟨.condition, t⟩) (htg : Target t key id) (hpo : Portable x fs p) {ls : List Layer}
    (o : Over fs ls) : ∃ s, Page.condition x (Page.page x lang n) (e :: up) ls key id = some s ∧
      V1.Page.condition x (V1.Page.page x (lang.map oldTable) n) e (some (oldLayers ls)) key id = .text s := by
  subst ht
  have hk : key ∈ paths ⟨.condition, t⟩ := by simp [paths, Page.target_path htg]
  simp only [Page.condition, V1.Page.condition]
  obtain ⟨r, h1, h2, h3, h4⟩ := found hw o (hpo.1 key hk)
  rw [h1]
  simp only [h2]
  match r, h3, h4 with
  | none, _, h4 => exact absurd rfl (h4 (hpo.2 key hk).2)
  | some (dd, row), h3, _ =>
    obtain ⟨_, gs, w, ef⟩ := h3 _ _ rfl
    obtain ⟨v, rfl, hnil, hne⟩ := (hpo.2 key hk).1 gs dd row w ef
    have htx : V1.Page.text x (.scalar v) ≠ [] := by rw [text_scalar hnil]; exact hne
    have hf := find_here hi hin hp (.condition htg)
    simp only [oldAnswer, oldData, text_old, Option.some.injEq, if_neg htx]
    cases hb : e.find id with
    | none => exact ⟨[], by rw [if_pos (by rw [hf, hb]; rfl)], by rw [if_pos (Or.inl rfl)]⟩
    | some b =>
      rw [if_neg (by rw [hf, hb]; simp), if_neg (by simp [htx])]
      have hv : ∀ w ∈ [id ++ b!"." ++ V1.Page.text x (.scalar v), id], Names ⟨.condition, t⟩ w := by
        intro w hw
        simp only [List.mem_cons, List.not_mem_nil, or_false] at hw
        rcases hw with rfl | rfl
        · exact .conditionValue htg htx
        · exact .condition htg
      obtain ⟨s, a, b⟩ := first_alike ha hi hin hn hp hv o
      refine ⟨s, ?_, b⟩
      rw [← a]
      simp only [Page.named, text_old]

theorem element_alike (hw : WellNamed fs) (hpo : Portable x fs p) {ls : List Layer} (o : Over fs ls) :
    ∃ s, Page.element x lang (Page.page x lang n) (e :: up) ls p = some s ∧
      V1.Page.element x (lang.map oldTable) (V1.Page.page x (lang.map oldTable) n) e (some (oldLayers ls)) p = .text s := by
  obtain ⟨k, t⟩ := p
  cases k with
  | string => exact ⟨_, rfl, rfl⟩
  | comment => exact ⟨_, rfl, rfl⟩
  | language => exact ⟨_, rfl, by cases lang <;> rfl⟩
  | «variable» =>
    simp only [Page.element, V1.Page.element]
    obtain ⟨r, h1, h2, h3, _⟩ := found hw o (hpo.1 t (by simp [paths]))
    rw [h1]
    simp only [h2]
    match r, h3 with
    | none, _ => exact ⟨[], rfl, rfl⟩
    | some (dd, row), h3 =>
      obtain ⟨_, gs, w, ef⟩ := h3 _ _ rfl
      obtain ⟨v, rfl⟩ := hpo.2 gs dd row w ef
      exact ⟨V1.Page.text x (.scalar v), text_old (row := row), rfl⟩
  | reference => exact reference_alike ha hi hin hn hp hw rfl hpo o
  | range =>
    simp only [Page.element, V1.Page.element]
    match hs : split 58 t with
    | [] => exact absurd hs (Template.split_ne_nil' _ _)
    | [key] => exact range_alike ha hi hin hn hp hw rfl (Or.inl ⟨hs, rfl⟩) hpo o
    | key :: id :: rest => exact range_alike ha hi hin hn hp hw rfl (Or.inr ⟨rest, hs⟩) hpo o
  | condition =>
    simp only [Page.element, V1.Page.element]
    match hs : split 58 t with
    | [] => exact absurd hs (Template.split_ne_nil' _ _)
    | [key] => exact condition_alike ha hi hin hn hp hw rfl (Or.inl ⟨hs, rfl⟩) hpo o
    | key :: id :: rest => exact condition_alike ha hi hin hn hp hw rfl (Or.inr ⟨rest, hs⟩) hpo o
  | _ => exact hpo.2.elim

omit hp in
theorem elements_alike (hw : WellNamed fs) {ls : List Layer} (o : Over fs ls) : ∀ l : List Param, (∀ p ∈ l, p ∈ e.own ∧ Portable x fs p) →
    ∃ s, Page.elements (Page.element x lang (Page.page x lang n) (e :: up) ls) l = some s ∧
      V1.Page.elements (V1.Page.element x (lang.map oldTable) (V1.Page.page x (lang.map oldTable) n) e (some (oldLayers ls))) l = .text s
  | [], _ => ⟨[], rfl, rfl⟩
  | p :: l, hl => by
    obtain ⟨s1, a1, b1⟩ := element_alike ha hi hin hn (hl p (List.mem_cons_self ..)).1 hw (hl p (List.mem_cons_self ..)).2 o
    obtain ⟨s2, a2, b2⟩ := elements_alike hw o l fun q hq => hl q (List.mem_cons_of_mem _ hq)
    refine ⟨s1 ++ s2, ?_, ?_⟩
    · rw [Page.elements, a1, a2]
    · rw [V1.Page.elements, b1, b2]; rfl

end

theorem inside_all {P : Param → Prop} {d : Doc} (h : d.All P) {sc : List Doc} (hin : Inside d sc) : ∀ e ∈ sc, e.All P := by
  induction hin with
  | root => simpa using h
  | @box e b up v _ hb ih =>
    have hv : lookup (e :: up) v = some (b :: e :: up) := by rw [lookup, hb]
    exact (Template.lookup_all ih hv).2

theorem page_alike {x : Ext} (lang : Option Xcore.Language.Lang) {d : Doc} (hi : Inward d) (hw : WellNamed fs) (hp : d.All (Portable x fs)) :
    ∀ n, Alike x lang d fs n
  | 0 => fun _ _ _ h => absurd h (Nat.not_lt_zero _)
  | n + 1 => fun e _ hin hn _ o => elements_alike (page_alike lang hi hw hp n) hi hin hn hw o e.own fun p hpo =>
      ⟨hpo, Template.own_all (inside_all hp hin e (List.mem_cons_self ..)) p hpo⟩

theorem lang_old (fs : Fields) : V1.Page.langOf (oldFields fs) = (Page.langOf fs).map oldTable := by
  simp only [V1.Page.langOf, Page.langOf, lookup_old]
  match fs.lookup b!"#" with
  | none => rfl
  | some (.scalar _) => rfl
  | some (.table _) => rfl
  | some (.record _) => rfl
  | some (.rows _) => rfl

theorem render_alike {x : Ext} {d : Doc} (hi : Inward d) (hw : WellNamed fs) (hp : d.All (Portable x fs)) :
    ∃ out, Page.render x (V1.Template.nesting d + 1) d fs = some out ∧ V1.Page.render x d (some (oldFields fs)) = .text out := by
  obtain ⟨s, a, b⟩ := page_alike (Page.langOf fs) hi hw hp (V1.Template.nesting d + 1) d [] .root (Nat.lt_succ_self _) [⟨fs, .plain⟩]
    ⟨by simp [Within.all], ⟨_, List.mem_cons_self, rfl⟩⟩
  exact ⟨s, a, by rw [V1.Page.render, lang_old]; exact b⟩

/-! ## Reading -/

open Xcore.Template (Word LangChar ElemChar)

theorem closes_of_not_mem {q : UInt8} {t : Str} (hne : t ≠ []) (hq : q ∉ t) : V1.Template.Closes [q, q] t := by
  refine ⟨hne, fun u v h _ => ?_⟩
  have hl := congrArg List.length h
  simp only [List.length_append, List.length_cons, List.length_nil] at hl
  cases v with
  | nil => rfl
  | cons c v =>
    simp only [List.length_cons] at hl
    have hlt : u.length < t.length := by omega
    have h1 : (t ++ [q, q])[u.length]? = t[u.length]? := List.getElem?_append_left hlt
    have h2 : (u ++ [q, q] ++ c :: v)[u.length]? = some q := by simp
    rw [h, h2] at h1
    exact absurd (List.mem_of_getElem? h1.symm) hq

theorem elem_closes {q : UInt8} {t : Str} (hw : Word ElemChar t) (hq : ¬ ElemChar q) : V1.Template.Closes [q, q] t :=
  closes_of_not_mem hw.1 fun h => hq (hw.2 q h)

/-- An element of version 2 is one of version 1. -/
theorem elem_old {src : Str} {p : Param} (h : Template.Elem src p) : V1.Template.Elem src p := by
  cases h with
  | comment h => exact .comment h
  | language h => exact .language (closes_of_not_mem h.1 fun hq => absurd (h.2 _ hq) (by unfold LangChar; decide))
  | reference h => exact .reference (elem_closes h (by unfold ElemChar LangChar; decide))
  | range h => exact .range (elem_closes h (by unfold ElemChar LangChar; decide))
  | condition h => exact .condition (elem_closes h (by unfold ElemChar LangChar; decide))
  | dump h => exact .dump (elem_closes h (by unfold ElemChar LangChar; decide))
  | «variable» h => exact .variable (elem_closes h (by unfold ElemChar LangChar; decide))
  | stop => exact .stop
  | start h => exact .start h

/-- An element of version 1 that conforms is one of version 2. -/
theorem elem_new {src : Str} {p : Param} (h : V1.Template.Elem src p) (hc : Conforms p) : Template.Elem src p := by
  cases h with
  | comment h => exact .comment h
  | language h => exact .language (hc.1 rfl)
  | reference h => exact .reference (hc.2 (by simp))
  | range h => exact .range (hc.2 (by simp))
  | condition h => exact .condition (hc.2 (by simp))
  | dump h => exact .dump (hc.2 (by simp))
  | «variable» h => exact .variable (hc.2 (by simp))
  | stop => exact .stop
  | start h => exact .start h

theorem meta_old {s r : Str} {p : Param} (h : Template.MetaAt s p r) : V1.Template.MetaAt s p r := by
  obtain ⟨src, e, h1, h2, h3⟩ := h
  exact ⟨src, e, elem_old h1, h2, h3⟩

theorem meta_new {s r : Str} {p : Param} (h : V1.Template.MetaAt s p r) (hc : Conforms p) : Template.MetaAt s p r := by
  obtain ⟨src, e, h1, h2, h3⟩ := h
  exact ⟨src, e, elem_new h1 hc, h2, h3⟩

theorem reads_new {s : Str} {l : List (Str × Param)} (h : V1.Template.Reads s l) : (∀ q ∈ l, Conforms q.2) → Template.Reads s l := by
  induction h with
  | nil => exact fun _ => .nil
  | elem hm _ ih =>
    intro hc
    exact .elem (meta_new hm (hc _ (List.mem_cons_self ..))) (ih fun q hq => hc q (List.mem_cons_of_mem _ hq))
  | @text t rest l hne hno hrest hr ih =>
    intro hc
    refine .text hne (fun t₁ t₂ e h2 hm => ?_) ?_ (ih fun q hq => hc q (List.mem_cons_of_mem _ hq))
    · obtain ⟨p, r, hm⟩ := hm
      exact hno t₁ t₂ e h2 ⟨p, r, meta_old hm⟩
    · rcases hrest with h | ⟨p, r, hm⟩
      · exact Or.inl h
      · cases hr with
        | nil => exact Or.inl rfl
        | elem hm' _ => exact Or.inr ⟨_, _, meta_new hm' (hc _ (List.mem_cons_of_mem _ (List.mem_cons_self ..)))⟩
        | text hne' hno' _ _ => exact absurd ⟨p, r, hm⟩ (hno' [] _ rfl hne')

theorem reads_conform {s : Str} {l : List (Str × Param)} (h' : Template.Reads s l) : ∀ q ∈ l, Conforms q.2 := by
  induction h' with
  | nil => intro q hq; cases hq
  | elem hm _ ih =>
    intro q hq
    rcases List.mem_cons.1 hq with rfl | hq
    · obtain ⟨src, e, h1, _⟩ := hm
      cases h1 <;> refine ⟨?_, ?_⟩ <;> first | (intro _; assumption) | simp
    · exact ih q hq
  | text _ _ _ _ ih =>
    intro q hq
    rcases List.mem_cons.1 hq with rfl | hq
    · exact ⟨by simp, by simp⟩
    · exact ih q hq

theorem all_tokens {P : Param → Prop} (hs : ∀ n, P ⟨.start, n⟩) (he : P ⟨.stop, []⟩) : ∀ d : Doc, d.All P ↔ ∀ p ∈ d.tokens, P p
  | .nil => by simp [Doc.All, Doc.tokens]
  | .elem p r => by simp [Doc.All, Doc.tokens, all_tokens hs he r]
  | .box n b r => by
    simp only [Doc.All, Doc.tokens, all_tokens hs he b, all_tokens hs he r, List.mem_cons, List.mem_append]
    constructor
    · rintro ⟨h1, h2⟩ p (rfl | h | rfl | h)
      · exact hs n
      · exact h1 p h
      · exact he
      · exact h2 p h
    · exact fun h => ⟨fun p hp => h p (Or.inr (Or.inl hp)), fun p hp => h p (Or.inr (Or.inr (Or.inr hp)))⟩

theorem conforms_tokens {d : Doc} : d.All Conforms ↔ ∀ p ∈ d.tokens, Conforms p :=
  all_tokens (fun _ => ⟨by simp, by simp⟩) ⟨by simp, by simp⟩ d

theorem means_new {s : Str} {d : Doc} (h : V1.Template.Means s d) (hc : d.All Conforms) : Template.Means s d := by
  obtain ⟨hp, l, hr, e⟩ := h
  refine ⟨hp, l, reads_new hr fun q hq => conforms_tokens.1 hc _ ?_, e⟩
  rw [← e]; exact List.mem_map_of_mem hq

theorem means_conforms {s : Str} {d : Doc} (h : Template.Means s d) : d.All Conforms := by
  obtain ⟨_, l, hr, e⟩ := h
  rw [conforms_tokens, ← e]
  intro p hp
  obtain ⟨q, hq, rfl⟩ := List.mem_map.1 hp
  exact reads_conform hr q hq

/-! ## Names in memory -/

theorem holds_row {h : Dataset.Heap} {pos : Nat → Option Nat} {v : Val} {l : List Fields} {pl : Option Nat} (o : Page.Holds h pos v (.rows l) pl) {gs : Fields}
    (hm : gs ∈ l) : ∃ b pl', Page.Holds h pos (.ptr b) (.record gs) pl' := by
  cases o with
  | rows _ _ _ h4 =>
    obtain ⟨i, hi⟩ := List.getElem?_of_mem hm
    exact ⟨_, _, h4 i _ hi⟩

theorem holds_within {h : Dataset.Heap} {pos : Nat → Option Nat} {a : Nat} {pl : Option Nat} (o : Page.Holds h pos (.ptr a) (.record fs) pl) {gs : Fields}
    (w : Within fs gs) : ∃ b pl', Page.Holds h pos (.ptr b) (.record gs) pl' := by
  induction w with
  | all => exact ⟨a, pl, o⟩
  | field _ hm ih =>
    obtain ⟨b, pl', o'⟩ := ih
    cases o' with
    | record _ _ _ _ _ h3 =>
      have := h3 _ _ hm
      obtain ⟨c, hc, _⟩ := Page.holds_isDataset this
      exact ⟨c, _, hc ▸ this⟩
  | row _ hm hr ih =>
    obtain ⟨b, pl', o'⟩ := ih
    cases o' with
    | record _ _ _ _ _ h3 =>
      exact holds_row (h3 _ _ hm) hr

theorem holds_named {h : Dataset.Heap} {pos : Nat → Option Nat} {a : Nat} {pl : Option Nat} (o : Page.Holds h pos (.ptr a) (.record fs) pl) : WellNamed fs := by
  intro gs w k d hm
  obtain ⟨b, pl', o'⟩ := holds_within o w
  cases o' with
  | record _ _ _ h1 _ _ => exact (h1 k d hm).2.1

end Xcore.Versions
