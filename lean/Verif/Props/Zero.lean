import Verif.Proof.Zero

/-!
# Property C96: objects made without their constructor

`Model/Zero.lean` models the methods on maps that can be nil. On objects made by the constructors they do what the other models say; on
composite literals (`&xcore.XLanguage{}`, `&xcore.XCache{}`, `&xcore.XDatasetTS{}`) what happens is stated exactly.
-/

namespace Xcore.Zero

section
variable (unmarshal : Str → Option Language.XLang) (parseTag : Str → Str)

/-- **C96** A language table made by a constructor: every call of every history returns, with the answers of the sequential model. -/
theorem C96_made_tables_return (l : Language.Lang) (h : List LOp) :
    lrun unmarshal parseTag (madeLang l) h = (madeLang (h.foldl (after unmarshal parseTag) l), (answers unmarshal parseTag l h).map .returns) :=
  lrun_made unmarshal parseTag h l

/-- **C96** (partial: a literal is not usable as an empty table) The outcomes of every history of calls on `&XLanguage{Name: n, Language: t}`. -/
theorem C96_table_literal_partial (n t : Str) (h : List LOp) :
    (lrun unmarshal parseTag (literalLang n t) h).2 = literalAnswers unmarshal parseTag n t false h :=
  lrun_bare unmarshal parseTag h n t false

/-- **C96** Histories that write nothing do not tell the literal from a table made by `NewXLanguage`. -/
theorem C96_table_literal_read_only_partial (n t : Str) (h : List LOp) (hr : ∀ op ∈ h, writes unmarshal op = false) :
    (lrun unmarshal parseTag (literalLang n t) h).2 = (lrun unmarshal parseTag (madeLang (Language.new n t)) h).2 := by
  rw [C96_table_literal_partial, C96_made_tables_return]
  have hload : ∀ (data : Str), ¬ HasEntries data → ∀ n t : Str, (Language.loadString (Language.new n t) data).1 = Language.new n t := by
    intro data hd n t
    have hf := foldl_names (Language.scan [] data).1 (Language.new n t)
    have he : ((Language.scan [] data).1.foldl Language.loadLine (Language.new n t)).entries = [] :=
      (foldl_entries_nil _ _).2 ⟨rfl, Decidable.not_not.1 (mt (hasEntries_iff data).2 hd)⟩
    show (Language.scan [] data).1.foldl Language.loadLine (Language.new n t) = _
    generalize (Language.scan [] data).1.foldl Language.loadLine (Language.new n t) = l at hf he ⊢
    obtain ⟨n', t', es, st⟩ := l
    simp only at hf he
    simp [hf.1, hf.2.1, hf.2.2, he, Language.new]
  have hnew : ∀ (op : LOp) (n t : Str), writes unmarshal op = false →
      after unmarshal parseTag (Language.new n t) op =
        Language.new (after unmarshal parseTag (Language.new n t) op).name (after unmarshal parseTag (Language.new n t) op).tag := by
    intro op n t hw
    cases op with
    | set e v => simp [writes] at hw
    | setStatus e v => simp [writes] at hw
    | load data =>
      have hd : ¬ HasEntries data := by simpa [writes] using hw
      simp only [after, hload data hd]
      rfl
    | loadXML data =>
      simp only [writes] at hw
      cases hu : unmarshal data with
      | none => simp only [after, Language.loadXML, hu]; rfl
      | some doc =>
        rw [hu] at hw
        have he : doc.entries = [] := by simpa using hw
        simp only [after, Language.loadXML, hu, he, List.foldl_nil]
        rfl
    | _ => rfl
  induction h generalizing n t with
  | nil => rfl
  | cons op h ih =>
    have hw := hr op (by simp)
    have hl : isLoad op = false := by
      cases op <;> first | rfl | exact hw
    simp only [literalAnswers, answers, List.map_cons, hw, hl, Bool.false_and, Bool.or_false, Bool.false_eq_true, if_false]
    rw [ih _ _ (fun o ho => hr o (by simp [ho])), ← hnew op n t hw]

/-- **C96** `LoadString` of any text with an entry into a literal panics and leaves the mutex locked: from then on every call that needs the lock
blocks for ever. -/
theorem C96_load_into_literal_blocks (n t data : Str) (hd : HasEntries data) (h : List LOp) (op : LOp) (ho : needsLock unmarshal op = true) :
    (lrun unmarshal parseTag (literalLang n t) (.load data :: h ++ [op])).2.head? = some .panics ∧
    (lrun unmarshal parseTag (literalLang n t) (.load data :: h ++ [op])).2.getLast? = some .blocks := by
  rw [C96_table_literal_partial]
  have hs : ∀ (h : List LOp) (n t : Str), (literalAnswers unmarshal parseTag n t true (h ++ [op])).getLast? = some .blocks := by
    intro h
    induction h with
    | nil => intro n t; simp [literalAnswers, ho]
    | cons o h ih =>
      intro n t
      rw [List.cons_append, literalAnswers]
      simp only [Bool.true_or]
      rw [List.getLast?_cons, ih]
      rfl
  constructor
  · simp [literalAnswers, writes, hd]
  · rw [List.cons_append, literalAnswers]
    simp only [isLoad, hd, decide_true, Bool.or_true]
    rw [List.getLast?_cons, hs]
    rfl

end

section
variable {D : Type}

open Xcore.Cache (Env Op Out)

/-- **C96** A cache made by `NewXCache`: the answers to every history are those of the sequential model. -/
theorem C96_made_caches (c : Cache.Cache D) (h : List (Env × Op D)) :
    crun (madeCache c) h = (madeCache (Cache.run c h).1, (Cache.run c h).2) := crun_made h c

/-- **C96** (partial: a literal is not usable as an empty cache) `&XCache{Maxitems: m, Expire: e, Validator: v}`: until the first `Flush`, `Set` panics and
all other calls answer as on an empty cache; from the first `Flush` on it is a cache of `NewXCache` with the fields it then has. -/
theorem C96_cache_literal_partial (m e : Int) (v : Bool) (h : List (Env × Op D)) (hh : ∀ x ∈ h, x.2 ≠ .flush) :
    (crun (literalCache m e v) h).2 = h.map (fun x => emptyAnswer x.2) ∧
    ∀ (env : Env) (h' : List (Env × Op D)),
      (crun (literalCache m e v) (h ++ (env, .flush) :: h')).2 = h.map (fun x => emptyAnswer x.2) ++
        .unit :: (Cache.run (withFieldsOf (Cache.run { Cache.new m e with hasValidator := v } h).1) h').2 := by
  have hl := crun_literal h { Cache.new m e with hasValidator := v } hh
  have hl' : crun (literalCache m e v) h = _ := hl
  refine ⟨by rw [hl'], ?_⟩
  intro env h'
  rw [crun_append, hl']
  generalize (Cache.run { Cache.new m e with hasValidator := v } h).1 = c
  have := crun_made h' (withFieldsOf c)
  have e1 : crun (literalCache c.maxitems c.expire c.hasValidator) ((env, .flush) :: h') =
      ((crun (madeCache (withFieldsOf c)) h').1, .unit :: (crun (madeCache (withFieldsOf c)) h').2) := rfl
  simp only [e1, this]

end

open Dataset in
/-- **C96** `&XDatasetTS{}` (the example of the package documentation), `NewXDatasetTS(nil)`, and wrappers around them: every reading call panics; the
first `Set` or `Del` panics too and leaves the mutex locked, so that every later call blocks for ever. -/
theorem C96_empty_wrapper (x : Ext) (n : Nat) (h : Heap) (a : Addr) (ha : target h a = none) (reads rest : List TSOp) (w : TSOp)
    (hr : ∀ op ∈ reads, ¬ Changes op) (hw : Changes w) :
    (calls (tsMethod x n a) (h, false) (reads ++ w :: rest)).2 =
      reads.map (fun _ => .panics) ++ .panics :: rest.map (fun _ => .blocks) := by
  induction reads with
  | nil =>
    have hd : (tsMethod x n a w).deferred = false := by cases w <;> first | rfl | exact hw.elim
    simp only [List.nil_append, calls, call, Bool.false_eq_true, if_false, alone_empty x n h a ha, hd, Bool.not_false, calls_held, List.map_nil]
  | cons op reads ih =>
    have ho := hr op (by simp)
    have hd : (tsMethod x n a op).deferred = true := by cases op <;> first | rfl | exact (ho trivial).elim
    simp only [List.cons_append, calls, call, Bool.false_eq_true, if_false, alone_empty x n h a ha, hd, Bool.not_true, List.map_cons,
      ih (fun o ho => hr o (by simp [ho]))]

open Dataset in
/-- **C96** A wrapper around a dataset: every call answers what it does without the mutex, and no panic (of a `Get` with a bad path) blocks
later calls. -/
theorem C96_full_wrapper (x : Ext) (n : Nat) (h : Heap) (a : Addr) (ha : target h a ≠ none) (ops : List TSOp) :
    (calls (tsMethod x n a) (h, false) ops).2 = outcomes (tsSeq x n a) (fun _ => false) h ops := by
  refine calls_outcomes _ _ _ (fun h => target h a ≠ none) (tsMethod_alone x n a) ?_ ?_ ops h ha
  · intro op s hs
    rw [tsSeq_target]; exact hs
  · intro op s hs hp
    cases op <;> simp only [tsMethod, tsRead, Bool.not_true]
    all_goals
      simp only [tsSeq, Dataset.set, Dataset.del] at hp
      cases e : target s a with
      | none => exact absurd e hs
      | some t => simp [e, change] at hp

open Dataset in
/-- **C96** `&XDatasetCollectionTS{}` is an empty collection, usable like one made by the constructor; after a `Shift` or `Pop` on an empty
collection, which panics, every call blocks. -/
theorem C96_collection (h : Heap) (a : Addr) (ops : List ColOp) :
    (calls (colMethod a) (h, false) ops).2 = outcomes (colSeq a) takes h ops := by
  refine calls_outcomes _ _ _ (fun _ => True) (colMethod_alone a) (fun _ _ _ => trivial) ?_ ops h trivial
  intro op s _ hp
  cases op <;> first | rfl | simp [colSeq] at hp

/-! ## Instances -/

/-- A path through an empty wrapper panics, and the wrapper around can still be used. -/
example : (calls (Dataset.tsMethod ⟨fun _ => [], fun _ => [], fun _ => [], fun _ => [], fun _ => [], fun _ _ => [], fun _ => 0⟩ 5 1) ([.ds [], .dsTS (some 0), .dsTS none], false)
    [.set b!"a" (.bool true), .get b!"a", .set b!"b" (.ptr 2), .get b!"b>c", .del b!"a", .get b!"a"]).2 =
    [.returns .unit, .returns (.val (some (.bool true))), .returns .unit, .panics, .returns .unit, .returns (.val none)] := by decide +kernel

example : (calls (Dataset.colMethod 0) ([.colTS []], false) [.push none, .count, .pop, .pop, .count]).2 =
    [.returns .unit, .returns (.num 1), .returns (.elem none), .panics, .blocks] := by decide +kernel

example : Dataset.target [.dsTS none] 0 = none ∧ Dataset.target [.dsTS none, .dsTS (some 0)] 1 = none := by decide

example : HasEntries b!"# title\nhello = Hola\n" ∧ ¬ HasEntries b!"# title\n\nno entry\n" := by decide +kernel

/-- The literal reads as an empty table, its `Set` panics, and after `LoadString` it blocks. -/
example : (lrun (fun _ => none) id (literalLang b!"menu" b!"es")
    [.get b!"hello", .set b!"hello" b!"Hola", .getName, .load b!"hello=Hola\n", .getName, .get b!"hello"]).2 =
    [.returns (.str []), .panics, .returns (.str b!"menu"), .panics, .returns (.str b!"menu"), .blocks] := by decide +kernel

example : (lrun (fun _ => none) id (madeLang (Language.new b!"menu" b!"es"))
    [.get b!"hello", .set b!"hello" b!"Hola", .load b!"bye=Adios\n", .get b!"hello", .get b!"bye"]).2 =
    [.returns (.str []), .returns .unit, .returns (.failed false), .returns (.str b!"Hola"), .returns (.str b!"Adios")] := by decide +kernel

example (env : Cache.Env) : (crun (literalCache 50 0 false : Cache Nat)
    [(env, .get b!"a"), (env, .set b!"a" 1), (env, .count), (env, .flush), (env, .set b!"a" 1), (env, .count)]).2 =
    [.got none false, .panicked, .num 0, .unit, .unit, .num 1] := rfl

end Xcore.Zero
