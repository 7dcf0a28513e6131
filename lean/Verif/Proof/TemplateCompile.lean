import Verif.Base.StrLemmas
import Verif.Proof.TemplateLex

/-! # The second pass of the compiler -/

namespace Xcore.Template

/-- What the lexer puts into parameters. -/
structure Lexed (p : Param) : Prop where
  stop : p.kind = .stop → p.data = []
  start : p.kind = .start → p.data ≠ []
  unused : p.kind ≠ .unused

theorem elem_lexed {src : Str} {p : Param} (h : Elem src p) : Lexed p := by
  cases h <;> constructor <;> simp_all [Word]

theorem reads_lexed {s : Str} {l : List (Str × Param)} (h : Reads s l) : ∀ p ∈ l.map Prod.snd, Lexed p := by
  induction h with
  | nil => simp
  | elem hm _ ih =>
    obtain ⟨_, _, he, _⟩ := hm
    simp only [List.map_cons, List.mem_cons, forall_eq_or_imp]
    exact ⟨elem_lexed he, ih⟩
  | text _ _ _ _ ih =>
    simp only [List.map_cons, List.mem_cons, forall_eq_or_imp]
    exact ⟨⟨by simp, by simp, by simp⟩, ih⟩

theorem lex_lexed (data : Str) : ∀ p ∈ lex data, Lexed p := by
  obtain ⟨l, h, e⟩ := lex_reads data
  rw [e]; exact reads_lexed h

/-! ## Balanced parameters are documents -/

/-- Documents separated by `k` box ends. -/
def stopSep : Doc → List Doc → List Param
  | d, [] => d.tokens
  | d, e :: l => d.tokens ++ ⟨.stop, []⟩ :: stopSep e l

/-- Depth after the parameters when it is `k` before them; `none` if it becomes negative. -/
def depth : Nat → List Param → Option Nat
  | k, [] => some k
  | k, p :: ps => if p.kind = .start then depth (k + 1) ps else if p.kind = .stop then (match k with | 0 => none | k + 1 => depth k ps) else depth k ps

theorem parse_docs (ps : List Param) : ∀ k, (∀ p ∈ ps, Lexed p) → depth k ps = some 0 →
    ∃ d l, l.length = k ∧ ps = stopSep d l ∧ d.Plain ∧ ∀ e ∈ l, e.Plain := by
  induction ps with
  | nil =>
    intro k _ h
    simp [depth] at h
    exact ⟨.nil, [], by simp [h], rfl, trivial, by simp⟩
  | cons p ps ih =>
    intro k hx h
    have hp := hx p (by simp)
    have hx' : ∀ q ∈ ps, Lexed q := fun q hq => hx q (by simp [hq])
    unfold depth at h
    split at h
    · rename_i hs
      obtain ⟨d, l, hl, rfl, hd, hle⟩ := ih _ hx' h
      match l, hl with
      | e :: l, hl =>
        refine ⟨.box p.data d e, l, by simpa using hl, ?_, ⟨hp.start hs, hd, hle e (by simp)⟩, fun e' he => hle e' (by simp [he])⟩
        have hpe : p = ⟨.start, p.data⟩ := by cases p; simp at hs; simp [hs]
        cases l with
        | nil => simp only [stopSep, Doc.tokens]; rw [← hpe]
        | cons e2 l => simp only [stopSep, Doc.tokens]; rw [← hpe]; simp
    · split at h
      · rename_i hs
        cases k with
        | zero => cases h
        | succ k =>
          obtain ⟨d, l, hl, rfl, hd, hle⟩ := ih _ hx' h
          refine ⟨.nil, d :: l, by simp [hl], ?_, trivial, ?_⟩
          · have hpe : p = ⟨.stop, []⟩ := by cases p; simp at hs; simp [hs]; exact hp.stop hs
            simp only [stopSep, Doc.tokens, List.nil_append]; rw [← hpe]
          · simpa [hd] using hle
      · rename_i h1 h2
        obtain ⟨d, l, hl, rfl, hd, hle⟩ := ih _ hx' h
        refine ⟨.elem p d, l, hl, ?_, ⟨h1, h2, hp.unused, hd⟩, hle⟩
        cases l <;> simp [stopSep, Doc.tokens]

theorem depth_append (ps qs : List Param) : ∀ k, depth k (ps ++ qs) = (depth k ps).bind fun j => depth j qs := by
  induction ps with
  | nil => intro k; rfl
  | cons p ps ih =>
    intro k
    simp only [List.cons_append, depth]
    split
    · exact ih _
    · split
      · cases k with
        | zero => rfl
        | succ k => exact ih _
      · exact ih _

theorem depth_tokens {d : Doc} (h : d.Plain) : ∀ k, depth k d.tokens = some k := by
  induction d with
  | nil => intro k; rfl
  | elem p r ih =>
    intro k
    simp only [Doc.tokens, depth]
    rw [if_neg h.1, if_neg h.2.1]; exact ih h.2.2.2 k
  | box n b r ihb ihr =>
    intro k
    simp only [Doc.tokens, depth, if_pos]
    rw [depth_append, ihb h.2.1]
    simp only [Option.bind_some, depth]
    exact ihr h.2.2 k

/-- Depth in terms of counts. -/
theorem depth_iff (ps : List Param) : ∀ k j, depth k ps = some j ↔
    (∀ l r, ps = l ++ r → l.countP (fun p => p.kind = .stop) ≤ k + l.countP (fun p => p.kind = .start)) ∧
    ps.countP (fun p => p.kind = .stop) + j = k + ps.countP (fun p => p.kind = .start) := by
  induction ps with
  | nil =>
    intro k j
    simp only [depth, Option.some.injEq, List.countP_nil, Nat.zero_add, Nat.add_zero]
    constructor
    · rintro rfl
      refine ⟨fun l r e => ?_, rfl⟩
      obtain ⟨rfl, rfl⟩ : l = [] ∧ r = [] := by simpa using e.symm
      simp
    · intro h; exact h.2.symm
  | cons p ps ih =>
    intro k j
    have split_iff : ∀ (P : List Param → Prop), (∀ l r, p :: ps = l ++ r → P l) ↔ P [] ∧ ∀ l r, ps = l ++ r → P (p :: l) := by
      intro P
      constructor
      · intro h
        exact ⟨h [] _ rfl, fun l r e => h (p :: l) r (by simp [e])⟩
      · rintro ⟨h0, h1⟩ l r e
        cases l with
        | nil => exact h0
        | cons q l =>
          simp at e
          obtain ⟨rfl, e⟩ := e
          exact h1 l r e
    rw [split_iff (fun l => l.countP (fun p => p.kind = .stop) ≤ k + l.countP (fun p => p.kind = .start))]
    unfold depth
    by_cases h1 : p.kind = .start
    · rw [if_pos h1, ih]
      have h2 : ¬ p.kind = .stop := by rw [h1]; simp
      simp only [List.countP_nil, Nat.zero_le, true_and, List.countP_cons, h1, decide_true, if_true, decide_false, Bool.false_eq_true, if_false, reduceCtorEq, Nat.add_zero]
      constructor <;> rintro ⟨a, b⟩ <;> refine ⟨fun l r e => ?_, by omega⟩ <;> have := a l r e <;> omega
    · rw [if_neg h1]
      by_cases h2 : p.kind = .stop
      · rw [if_pos h2]
        simp only [List.countP_nil, Nat.zero_le, true_and, List.countP_cons, h2, decide_true, if_true, decide_false, Bool.false_eq_true, if_false, reduceCtorEq, Nat.add_zero]
        cases k with
        | zero =>
          constructor
          · intro h; cases h
          · rintro ⟨a, _⟩
            have := a [] ps rfl
            simp at this
        | succ k =>
          simp only [ih]
          constructor <;> rintro ⟨a, b⟩ <;> refine ⟨fun l r e => ?_, by omega⟩ <;> have := a l r e <;> omega
      · rw [if_neg h2, ih]
        simp [h1, h2]

theorem balanced_iff (ps : List Param) : Balanced ps ↔ depth 0 ps = some 0 := by
  rw [depth_iff]; simp [Balanced]

/-- Balanced parameters of the lexer are those of a document. -/
theorem balanced_doc {ps : List Param} (hx : ∀ p ∈ ps, Lexed p) : Balanced ps ↔ ∃ d : Doc, d.Plain ∧ ps = d.tokens := by
  rw [balanced_iff]
  constructor
  · intro h
    obtain ⟨d, l, hl, rfl, hd, _⟩ := parse_docs ps 0 hx h
    have : l = [] := List.length_eq_zero_iff.1 hl
    subst this
    exact ⟨d, hd, rfl⟩
  · rintro ⟨d, hd, rfl⟩
    exact depth_tokens hd 0

/-- A document is determined by its parameters. -/
theorem tokens_inj {d d' : Doc} (h : d.Plain) (h' : d'.Plain) : ∀ {r r' : List Param}, 
    (∀ p, r.head? = some p → p.kind = .stop) → (∀ p, r'.head? = some p → p.kind = .stop) →
    d.tokens ++ r = d'.tokens ++ r' → d = d' ∧ r = r' := by
  induction d generalizing d' with
  | nil =>
    intro r r' hr hr' e
    cases d' with
    | nil => exact ⟨rfl, by simpa [Doc.tokens] using e⟩
    | elem p q =>
      simp only [Doc.tokens, List.nil_append, List.cons_append] at e
      exact absurd (hr p (by simp [e])) h'.2.1
    | box n b q =>
      simp only [Doc.tokens, List.nil_append, List.cons_append] at e
      have := hr ⟨.start, n⟩ (by simp [e]); simp at this
  | elem p q ih =>
    intro r r' hr hr' e
    cases d' with
    | nil =>
      simp only [Doc.tokens, List.nil_append, List.cons_append] at e
      exact absurd (hr' p (by simp [← e])) h.2.1
    | elem p' q' =>
      simp only [Doc.tokens, List.cons_append, List.cons.injEq] at e
      obtain ⟨rfl, rfl⟩ := ih h.2.2.2 h'.2.2.2 hr hr' e.2
      exact ⟨by rw [e.1], rfl⟩
    | box n b q' =>
      simp only [Doc.tokens, List.cons_append, List.cons.injEq] at e
      exact absurd (by rw [e.1]) h.1
  | box n b q ihb ihq =>
    intro r r' hr hr' e
    cases d' with
    | nil =>
      simp only [Doc.tokens, List.nil_append, List.cons_append] at e
      have := hr' ⟨.start, n⟩ (by simp [← e]); simp at this
    | elem p' q' =>
      simp only [Doc.tokens, List.cons_append, List.cons.injEq] at e
      exact absurd (by rw [← e.1]) h'.1
    | box n' b' q' =>
      simp only [Doc.tokens, List.cons_append, List.cons.injEq, List.append_assoc] at e
      obtain ⟨rfl, e2⟩ := ihb h.2.1 h'.2.1 (by simp) (by simp) e.2
      simp only [List.cons.injEq, true_and] at e2
      obtain ⟨rfl, rfl⟩ := ihq h.2.2 h'.2.2 hr hr' e2
      have : n = n' := by simpa using e.1
      exact ⟨by rw [this], rfl⟩

/-! ## Errors of the second pass -/

theorem passLoop_depth (ps : List Param) : ∀ (s : Pass) (i : Nat), s.starts.length = s.uppers.length →
    (match (passLoop s i ps).2 with
      | none => depth s.starts.length ps = none
      | some s' => depth s.starts.length ps = some s'.starts.length) := by
  induction ps with
  | nil => intro s i h; simp [passLoop, depth]
  | cons p ps ih =>
    intro s i h
    simp only [passLoop, passStep, depth]
    by_cases h1 : p.kind = .start
    · simp only [h1, if_true]
      have := ih { s with starts := i :: s.starts, uppers := s.actual :: s.uppers, th := s.th ++ [⟨p.data, none, none, none⟩], actual := s.th.length } (i + 1) (by simp [h])
      simpa using this
    · rw [if_neg h1, if_neg h1]
      by_cases h2 : p.kind = .stop
      · rw [if_pos h2, if_pos h2]
        obtain ⟨th, c, starts, uppers, actual⟩ := s
        match starts, uppers, h with
        | [], [], _ => simp
        | sp :: starts, up :: uppers, h =>
          simp only [List.length_cons]
          refine ih _ (i + 1) ?_
          simpa using h
      · rw [if_neg h2, if_neg h2]
        exact ih s (i + 1) h

theorem compile_error_iff (th : THeap) (t : Nat) (data : Str) : (compile th t data).2 = false ↔ Balanced (lex data) := by
  rw [balanced_iff]
  have := passLoop_depth (lex data) ⟨th, lex data, [], [], t⟩ 0 rfl
  simp only [compile]
  generalize passLoop ⟨th, lex data, [], [], t⟩ 0 (lex data) = r at this ⊢
  obtain ⟨th', o⟩ := r
  cases o with
  | none => simp at this ⊢; simp [this]
  | some s =>
    simp at this ⊢
    rw [this]
    by_cases h : s.starts = []
    · simp [h]
    · rw [if_pos (List.length_pos_iff.2 h)]; simp [h]

/-! ## The second pass on a document -/

/-- Mark as unused. -/
def markU (p : Param) : Param := { p with kind := .unused }

theorem markUnused_append {A C : List Param} {p : Param} {i : Nat} (hi : i = A.length) :
    markUnused (A ++ p :: C) i = A ++ markU p :: C := by
  subst hi
  unfold markUnused
  simp [markU]

theorem moveOut_append : ∀ (B A C : List Param) (ptr n : Nat), ptr = A.length → n = B.length →
    moveOut n ptr (A ++ (B ++ C)) = (A ++ (B.map markU ++ C), B.filter fun p => p.kind ≠ .unused) := by
  intro B
  induction B with
  | nil => intro A C ptr n _ hn; subst hn; simp [moveOut]
  | cons p B ih =>
    intro A C ptr n hp hn
    subst hn
    have hget : (A ++ (p :: B ++ C))[ptr]? = some p := by subst hp; simp
    simp only [List.length_cons, moveOut, hget]
    by_cases h : p.kind = .unused
    · have hm : markU p = p := by cases p; simp at h; simp [markU, h]
      rw [if_neg (by simp [h])]
      have := ih (A ++ [p]) C (ptr + 1) B.length (by simp [hp]) rfl
      simp only [List.append_assoc, List.singleton_append] at this
      rw [List.cons_append, this]
      simp [h, hm]
    · rw [if_pos h, List.cons_append, markUnused_append hp]
      have := ih (A ++ [markU p]) C (ptr + 1) B.length (by simp [hp]) rfl
      simp only [List.append_assoc, List.singleton_append] at this
      rw [this]
      simp [h]

/-- The parameters of a document after the second pass went over it. -/
def Doc.marked : Doc → List Param
  | .nil => []
  | .elem p r => p :: r.marked
  | .box n b r => ⟨.unused, n⟩ :: (b.marked.map markU ++ ⟨.unused, []⟩ :: r.marked)

theorem Doc.marked_length (d : Doc) : d.marked.length = d.tokens.length := by
  induction d with
  | nil => rfl
  | elem p r ih => simp [marked, tokens, ih]
  | box n b r ihb ihr => simp [marked, tokens, ihb, ihr]

theorem Doc.marked_own {d : Doc} (h : d.Plain) : (d.marked.filter fun p => p.kind ≠ .unused) = d.own := by
  induction d with
  | nil => rfl
  | elem p r ih =>
    have := ih h.2.2.2
    simp [marked, own, h.2.2.1] at this ⊢
    exact this
  | box n b r ihb ihr =>
    have := ihr h.2.2
    simp [marked, own] at this ⊢
    rw [this]
    simp [markU]

/-- Memory after the second pass went over a document of the template at `a`. -/
def build : THeap → Nat → Doc → THeap
  | th, _, .nil => th
  | th, a, .elem _ r => build th a r
  | th, a, .box n b r =>
    let th1 := build (th ++ [⟨n, none, none, none⟩]) th.length b
    let th2 := upd th1 th.length fun o => { o with root := some b.own }
    build (register th2 a n th.length) a r

/-- Names of templates never change. -/
theorem upd_name {th : THeap} {a : Nat} {f : Tpl → Tpl} (hf : ∀ o, (f o).name = o.name) (b : Nat) :
    (upd th a f)[b]?.map Tpl.name = th[b]?.map Tpl.name := by
  unfold upd
  split
  · rfl
  · rename_i t ht
    rw [List.getElem?_set]
    split
    · rename_i h; subst h
      split
      · simp [ht, hf]
      · rename_i hl; rw [List.getElem?_eq_none (by omega)]
    · rfl

theorem upd_length (th : THeap) (a : Nat) (f : Tpl → Tpl) : (upd th a f).length = th.length := by
  unfold upd; split <;> simp

theorem addTemplate_length (th : THeap) (a : Nat) (v : Str) (t : Nat) : (addTemplate th a v t).length = th.length := by
  simp [addTemplate, upd_length]

theorem addTemplate_name (th : THeap) (a : Nat) (v : Str) (t b : Nat) :
    (addTemplate th a v t)[b]?.map Tpl.name = th[b]?.map Tpl.name := by
  unfold addTemplate
  rw [upd_name (by intro o; rfl), upd_name (by intro o; rfl)]

theorem register_eq (th : THeap) (a : Nat) {n : Str} (hn : n ≠ []) (t : Nat) :
    register th a n t = (namesOf n).foldl (fun th v => addTemplate th a v t) th := by
  unfold register namesOf
  cases h : indexByte 124 n with
  | some i =>
    simp only
    generalize split 124 n = l
    induction l generalizing th with
    | nil => rfl
    | cons v l ih =>
      by_cases hv : v = []
      · subst hv; simpa using ih th
      · have : 0 < v.length := List.length_pos_iff.2 hv
        simp [hv, this]
        simpa using ih _
  | none =>
    simp only
    rw [split_of_not_mem (indexByte_eq_none.1 h)]
    simp [hn]

theorem register_length (th : THeap) (a : Nat) {n : Str} (hn : n ≠ []) (t : Nat) : (register th a n t).length = th.length := by
  rw [register_eq th a hn]
  generalize namesOf n = l
  induction l generalizing th with
  | nil => rfl
  | cons v l ih => simp [ih, addTemplate_length]

theorem register_name (th : THeap) (a : Nat) {n : Str} (hn : n ≠ []) (t b : Nat) :
    (register th a n t)[b]?.map Tpl.name = th[b]?.map Tpl.name := by
  rw [register_eq th a hn]
  generalize namesOf n = l
  induction l generalizing th with
  | nil => rfl
  | cons v l ih => simp [ih, addTemplate_name]

theorem build_grow {d : Doc} (h : d.Plain) : ∀ (th : THeap) (a : Nat), th.length ≤ (build th a d).length ∧
    ∀ b, b < th.length → (build th a d)[b]?.map Tpl.name = th[b]?.map Tpl.name := by
  induction d with
  | nil => intro th a; exact ⟨Nat.le_refl _, fun _ _ => rfl⟩
  | elem p r ih => intro th a; exact ih h.2.2.2 th a
  | box n b r ihb ihr =>
    intro th a
    simp only [build]
    obtain ⟨l1, n1⟩ := ihb h.2.1 (th ++ [⟨n, none, none, none⟩]) th.length
    generalize build (th ++ [⟨n, none, none, none⟩]) th.length b = th1 at l1 n1 ⊢
    obtain ⟨l2, n2⟩ := ihr h.2.2 (register (upd th1 th.length fun o => { o with root := some b.own }) a n th.length) a
    rw [register_length _ _ h.1, upd_length] at l2 n2
    simp at l1
    refine ⟨by omega, fun c hc => ?_⟩
    rw [n2 c (by omega), register_name _ _ h.1, upd_name (by intro o; rfl), n1 c (by simp; omega), List.getElem?_append_left hc]

/-- The second pass over the parameters of a document. -/
theorem passLoop_doc {d : Doc} (h : d.Plain) : ∀ (th : THeap) (A C xs : List Param) (st up : List Nat) (a i : Nat), i = A.length →
    passLoop ⟨th, A ++ (d.tokens ++ C), st, up, a⟩ i (d.tokens ++ xs) =
      passLoop ⟨build th a d, A ++ (d.marked ++ C), st, up, a⟩ (i + d.tokens.length) xs := by
  induction d with
  | nil => intro th A C xs st up a i _; rfl
  | elem p r ih =>
    intro th A C xs st up a i hi
    simp only [Doc.tokens, List.cons_append, passLoop, passStep, if_neg h.1, if_neg h.2.1]
    have := ih h.2.2.2 th (A ++ [p]) C xs st up a (i + 1) (by simp [hi])
    simp only [List.append_assoc, List.singleton_append] at this
    rw [this]
    simp [build, Doc.marked, Nat.add_assoc, Nat.add_comm 1]
  | box n b r ihb ihr =>
    intro th A C xs st up a i hi
    simp only [Doc.tokens, List.cons_append, passLoop, passStep, if_true, List.append_assoc]
    have h1 := ihb h.2.1 (th ++ [⟨n, none, none, none⟩]) (A ++ [⟨.start, n⟩]) (⟨.stop, []⟩ :: (r.tokens ++ C)) (⟨.stop, []⟩ :: (r.tokens ++ xs)) (i :: st)
      (a :: up) th.length (i + 1) (by simp [hi])
    simp only [List.append_assoc, List.singleton_append] at h1
    rw [h1]
    simp only [passLoop, passStep, reduceCtorEq, if_false, if_true]
    have h2 := moveOut_append b.marked (A ++ [⟨.start, n⟩]) (⟨.stop, []⟩ :: (r.tokens ++ C)) (i + 1) (i + 1 + b.tokens.length - (i + 1)) (by simp [hi])
      (by rw [Doc.marked_length]; omega)
    simp only [List.append_assoc, List.singleton_append] at h2
    rw [h2, Doc.marked_own h.2.1]
    dsimp only
    obtain ⟨hl, hname⟩ := build_grow h.2.1 (th ++ [⟨n, none, none, none⟩]) th.length
    have hname := hname th.length (by simp)
    have hn : nameAt (upd (build (th ++ [⟨n, none, none, none⟩]) th.length b) th.length fun o => { o with root := some b.own }) th.length = n := by
      unfold nameAt
      rw [upd_name (by intro o; rfl), hname]; simp
    rw [hn, markUnused_append hi]
    have e1 : A ++ markU ⟨.start, n⟩ :: (b.marked.map markU ++ ⟨.stop, []⟩ :: (r.tokens ++ C)) =
        (A ++ markU ⟨.start, n⟩ :: b.marked.map markU) ++ ⟨.stop, []⟩ :: (r.tokens ++ C) := by simp
    rw [e1, markUnused_append (by simp [hi, Doc.marked_length]; omega)]
    have h3 := ihr h.2.2 (register (upd (build (th ++ [⟨n, none, none, none⟩]) th.length b) th.length fun o => { o with root := some b.own }) a n th.length)
      (A ++ markU ⟨.start, n⟩ :: b.marked.map markU ++ [markU ⟨.stop, []⟩]) C xs st up a (i + 1 + b.tokens.length + 1)
      (by simp [hi, Doc.marked_length]; omega)
    simp only [List.append_assoc, List.cons_append, List.nil_append] at h3 ⊢
    rw [h3]
    simp only [build, Doc.marked, markU, List.append_assoc, List.cons_append, List.length_cons, List.length_append]
    congr 1
    omega

end Xcore.Template
