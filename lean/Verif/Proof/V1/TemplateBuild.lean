import Verif.Proof.V1.TemplateLex
import Verif.Proof.TemplateBuild
import Verif.Proof.TemplateLoad

/-!
# The compiler of version 1

The second pass of version 1 is that of version 2 without fathers: forgetting the fathers commutes with every step.
-/

namespace Xcore.V1.Template

open Xcore.Template (Kind Param Doc namesOf lastNamed depth balanced_iff Balanced moveOut markUnused)

/-- A template of version 2 without its father. -/
def down (o : Xcore.Template.Tpl) : Tpl := ⟨o.name, o.root, o.subs⟩

/-- Memory of version 2 without fathers. -/
def downs (th : Xcore.Template.THeap) : THeap := th.map down

/-- Memory of version 1 in version 2. -/
def lifts (th : THeap) : Xcore.Template.THeap := th.map fun o => ⟨o.name, o.root, o.subs, none⟩

theorem downs_lifts (th : THeap) : downs (lifts th) = th := by
  unfold downs lifts
  rw [List.map_map]
  conv => rhs; rw [← List.map_id th]
  exact List.map_congr_left fun o _ => rfl

theorem downs_get (th : Xcore.Template.THeap) (a : Nat) : (downs th)[a]? = th[a]?.map down := by simp [downs]

theorem downs_length (th : Xcore.Template.THeap) : (downs th).length = th.length := by simp [downs]

theorem lifts_length (th : THeap) : (lifts th).length = th.length := by simp [lifts]

theorem upd_down {f : Xcore.Template.Tpl → Xcore.Template.Tpl} {g : Tpl → Tpl} (h : ∀ o, down (f o) = g (down o)) (th : Xcore.Template.THeap) (a : Nat) :
    downs (Xcore.Template.upd th a f) = upd (downs th) a g := by
  unfold Xcore.Template.upd upd
  rw [downs_get]
  cases e : th[a]? with
  | none => rfl
  | some o => simp [downs, List.map_set, h]

theorem upd_id {f : Xcore.Template.Tpl → Xcore.Template.Tpl} (h : ∀ o, down (f o) = down o) (th : Xcore.Template.THeap) (a : Nat) :
    downs (Xcore.Template.upd th a f) = downs th := by
  apply List.ext_getElem?
  intro i
  rw [downs_get, downs_get, Xcore.Template.upd_get']
  split
  · next e =>
    subst e
    cases th[i]? with
    | none => rfl
    | some o => simp [h]
  · rfl

theorem addTemplate_down (th : Xcore.Template.THeap) (t : Nat) (v : Str) (c : Nat) :
    downs (Xcore.Template.addTemplate th t v c) = addTemplate (downs th) t v c := by
  unfold Xcore.Template.addTemplate addTemplate
  rw [upd_down (g := fun o => { o with subs := some ((o.subs.getD []).set v c) }) (by intro o; rfl), upd_id (by intro o; rfl)]

theorem register_down (th : Xcore.Template.THeap) (t : Nat) (n : Str) (c : Nat) :
    downs (Xcore.Template.register th t n c) = register (downs th) t n c := by
  unfold Xcore.Template.register register
  cases indexByte 124 n with
  | some _ =>
    simp only
    generalize split 124 n = l
    induction l generalizing th with
    | nil => rfl
    | cons v l ih =>
      simp only [List.foldl_cons]
      split
      · rw [ih, addTemplate_down]
      · exact ih th
  | none => exact addTemplate_down ..

theorem nameAt_down (th : Xcore.Template.THeap) (a : Nat) : nameAt (downs th) a = Xcore.Template.nameAt th a := by
  unfold nameAt Xcore.Template.nameAt
  rw [downs_get]
  cases th[a]? <;> rfl

/-- A state of the second pass without fathers. -/
def downP (s : Xcore.Template.Pass) : Pass := ⟨downs s.th, s.compiled, s.starts, s.uppers, s.actual⟩

theorem passStep_down (s : Xcore.Template.Pass) (i : Nat) (x : Param) :
    passStep (downP s) i x = (Xcore.Template.passStep s i x).map downP := by
  unfold passStep Xcore.Template.passStep
  split
  · simp [downP, downs, down]
  · split
    · obtain ⟨th, compiled, starts, uppers, actual⟩ := s
      simp only [downP]
      cases starts with
      | nil => rfl
      | cons sp starts =>
        cases uppers with
        | nil => rfl
        | cons upper uppers =>
          simp only [Option.map_some, downP, Option.some.injEq, Pass.mk.injEq, and_true]
          have hu := upd_down (f := fun o => { o with root := some (moveOut (i - (sp + 1)) (sp + 1) compiled).2 })
            (g := fun o => { o with root := some (moveOut (i - (sp + 1)) (sp + 1) compiled).2 }) (by intro o; rfl) th actual
          rw [register_down, hu, ← nameAt_down, hu]
    · rfl

theorem passLoop_down (ps : List Param) : ∀ (s : Xcore.Template.Pass) (i : Nat),
    passLoop (downP s) i ps = (downs (Xcore.Template.passLoop s i ps).1, (Xcore.Template.passLoop s i ps).2.map downP) := by
  induction ps with
  | nil => intro s i; rfl
  | cons p ps ih =>
    intro s i
    simp only [passLoop, Xcore.Template.passLoop, passStep_down]
    cases Xcore.Template.passStep s i p with
    | none => rfl
    | some s' => exact ih s' (i + 1)

/-- The second pass on memory of version 1. -/
theorem passLoop_eq (ps compiled : List Param) (th : THeap) (t : Nat) :
    passLoop ⟨th, compiled, [], [], t⟩ 0 ps =
      (downs (Xcore.Template.passLoop ⟨lifts th, compiled, [], [], t⟩ 0 ps).1,
        (Xcore.Template.passLoop ⟨lifts th, compiled, [], [], t⟩ 0 ps).2.map downP) := by
  rw [← passLoop_down]
  simp [downP, downs_lifts]

theorem compile_error_iff (th : THeap) (t : Nat) (data : Str) : (compile th t data).2 = false ↔ Balanced (lex data) := by
  rw [balanced_iff]
  have := Xcore.Template.passLoop_depth (lex data) ⟨lifts th, lex data, [], [], t⟩ 0 rfl
  simp only [compile, passLoop_eq]
  generalize Xcore.Template.passLoop ⟨lifts th, lex data, [], [], t⟩ 0 (lex data) = r at this ⊢
  obtain ⟨th', o⟩ := r
  cases o with
  | none => simp only [List.length_nil] at this; simp [this]
  | some s =>
    simp only [List.length_nil] at this
    simp only [Option.map_some, downP]
    rw [this]
    by_cases h : s.starts.length > 0
    · rw [if_pos h]; simp; intro e; simp [e] at h
    · rw [if_neg h]; simp; simp at h; exact h

theorem boxes_down {lo hi : Nat} {th : Xcore.Template.THeap} {a : Nat} {d : Doc} {l : List (Str × Nat)} {th' : THeap} (e : ∀ c o, th[c]? = some o → lo ≤ c → c < hi → th'[c]? = some (down o))
    (hb : Xcore.Template.BoxesIn lo hi th a d l) : BoxesAt th' d l := by
  induction hb with
  | nil => exact .nil
  | elem _ ih => exact .elem ih
  | @box a t n b r o l lb h1 h2 h3 h4 h5 h6 _ h7 _ ihb ihr => exact .box (e _ _ h3 h1 h2) h4 h5 ihb h7 ihr

/-- The compiler on a balanced text. -/
theorem compile_doc {th : THeap} {t : Nat} {o : Tpl} {data : Str} {d : Doc} (ht : th[t]? = some o) (hp : d.Plain) (e : lex data = d.tokens) :
    ∃ th' l s, compile th t data = (th', false) ∧ th.length ≤ th'.length ∧ (∀ c, c < th.length → c ≠ t → th'[c]? = th[c]?) ∧
      th'[t]? = some { o with root := some d.own, subs := s } ∧ (∀ v, (s.getD []).get v = (lastNamed l v).or ((o.subs.getD []).get v)) ∧
      BoxesAt th' d l := by
  have tl : t < th.length := (List.getElem?_eq_some_iff.1 ht).1
  obtain ⟨l, s, h1, h2, h3, h4, h5⟩ := Xcore.Template.build_spec hp (lifts th) t ⟨o.name, o.root, o.subs, none⟩ (by simp [lifts, ht])
  rw [lifts_length] at h1 h2 h5
  have hpass := Xcore.Template.passLoop_doc hp (lifts th) [] [] [] [] [] t 0 rfl
  simp only [List.append_nil, List.nil_append, Xcore.Template.passLoop] at hpass
  have u : ∀ c, (downs (Xcore.Template.upd (Xcore.Template.build (lifts th) t d) t fun o => { o with root := some d.own }))[c]? =
      if c = t then some ⟨o.name, some d.own, s⟩ else (downs (Xcore.Template.build (lifts th) t d))[c]? := by
    intro c
    rw [downs_get, Xcore.Template.upd_get h3, downs_get]
    split <;> rfl
  refine ⟨downs (Xcore.Template.upd (Xcore.Template.build (lifts th) t d) t fun o => { o with root := some d.own }), l, s, ?_, ?_,
    fun c hc hct => ?_, ?_, h4, boxes_down (fun c o' hc h6 h7 => ?_) h5⟩
  · have hm := Doc.marked_own hp
    simp only [compile, e, passLoop_eq, hpass, Option.map_some, downP]
    simp only [List.length_nil, Nat.lt_irrefl, if_false, hm, gt_iff_lt]
    rw [upd_down]
    intro o; rfl
  · rw [downs_length, Xcore.Template.upd_length]; exact h1
  · rw [u, if_neg hct, downs_get, h2 c hc hct, ← downs_get, downs_lifts]
  · rw [u, if_pos rfl]
  · rw [u, if_neg (by omega), downs_get, hc]; rfl

/-- What loading never changes. -/
theorem load_frame {th : THeap} {t : Nat} {o : Tpl} (ht : th[t]? = some o) (data : Str) :
    (∀ b, b < th.length → b ≠ t → (loadString th t data).1[b]? = th[b]?) ∧
    ∃ s r, (loadString th t data).1[t]? = some { o with subs := s, root := r } ∧ ((loadString th t data).2 = true → r = o.root) := by
  have hl : t < (lifts th).length := by rw [lifts_length]; exact (List.getElem?_eq_some_iff.1 ht).1
  have h0 : Xcore.Template.Frame (lifts th) t ⟨o.name, o.root, o.subs, none⟩ (lifts th) := ⟨fun _ _ _ => rfl, o.subs, by simp [lifts, ht]⟩
  have hq := (Xcore.Template.passLoop_kept (Xcore.Template.kept_frame hl) (lex data) ⟨lifts th, lex data, [], [], t⟩ 0 h0 (Nat.le_refl _)
    ⟨[], rfl, by simp, .nil⟩ rfl).1
  unfold loadString compile
  simp only [passLoop_eq]
  generalize Xcore.Template.passLoop ⟨lifts th, lex data, [], [], t⟩ 0 (lex data) = r at hq
  obtain ⟨th', q⟩ := r
  simp only at hq
  obtain ⟨s, es⟩ := hq.self
  have ho : ∀ b, b < th.length → b ≠ t → (downs th')[b]? = th[b]? := by
    intro b hb hbt
    rw [downs_get, hq.others b (by rw [lifts_length]; exact hb) hbt, ← downs_get, downs_lifts]
  have hs : (downs th')[t]? = some { o with subs := s } := by rw [downs_get, es]; rfl
  have err : (∀ b, b < th.length → b ≠ t → (downs th')[b]? = th[b]?) ∧
      ∃ s r, (downs th')[t]? = some { o with subs := s, root := r } ∧ (true = true → r = o.root) := ⟨ho, s, o.root, hs, fun _ => rfl⟩
  cases q with
  | none => exact err
  | some p =>
    simp only [Option.map_some]
    split
    · exact err
    · refine ⟨fun b hb hbt => ?_, s, some ((downP p).compiled.filter fun p => p.kind ≠ .unused), ?_, by simp⟩
      · simp only
        unfold upd
        rw [hs]
        simp only
        rw [List.getElem?_set_ne (Ne.symm hbt)]
        exact ho b hb hbt
      · simp only
        unfold upd
        rw [hs]
        simp only
        rw [List.getElem?_set_self (List.getElem?_eq_some_iff.1 hs).1]

/-- A name in the boxes of a document. -/
theorem BoxesAt.find {th : THeap} {d : Doc} {l : List (Str × Nat)} (h : BoxesAt th d l) (v : Str) :
    match d.find v with
    | none => lastNamed l v = none
    | some b => ∃ t, lastNamed l v = some t ∧ Compiled th t b [] := by
  induction h with
  | nil => rfl
  | elem _ ih => exact ih
  | @box t n b r o l lb h1 h2 h3 h5 h6 _ _ ihr =>
    simp only [Doc.find, lastNamed]
    cases e : r.find v with
    | some b' =>
      rw [e] at ihr
      obtain ⟨t', q1, q2⟩ := ihr
      exact ⟨t', by simp [q1], q2⟩
    | none =>
      rw [e] at ihr
      simp only at ihr
      by_cases hv : v ∈ namesOf n
      · simp only [ihr, hv, if_true, Option.none_or]
        exact ⟨t, rfl, o, lb, h1, h3, h5, by simp [h6]⟩
      · simp [ihr, hv]

/-- `GetTemplate` on a compiled document. -/
theorem Compiled.get {th : THeap} {t : Nat} {d : Doc} {old : AMap Nat} (hc : Compiled th t d old) (v : Str) :
    match d.find v with
    | none => getTemplate th t v = old.get v
    | some b => ∃ c, getTemplate th t v = some c ∧ Compiled th c b [] := by
  obtain ⟨o, l, e, _, hb, hs⟩ := hc
  have hr : getTemplate th t v = (lastNamed l v).or (old.get v) := by simp only [getTemplate, e, hs]
  have := hb.find v
  rw [hr]
  generalize d.find v = x at this
  cases x with
  | none => simp only at this ⊢; rw [this]; rfl
  | some b => obtain ⟨c, q1, q4⟩ := this; exact ⟨c, by rw [q1]; rfl, q4⟩

theorem find_nesting {d : Doc} {v : Str} {b : Doc} (h : d.find v = some b) : nesting b < nesting d := by
  induction d with
  | nil => cases h
  | elem p r ih => exact ih h
  | box n b' r _ ih =>
    simp only [Doc.find, Option.or_eq_some_iff] at h
    simp only [nesting]
    rcases h with h | ⟨_, h⟩
    · have := ih h; omega
    · split at h
      · cases h; omega
      · cases h

end Xcore.V1.Template
