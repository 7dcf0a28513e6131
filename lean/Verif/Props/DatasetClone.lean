import Verif.Props.Dataset
import Verif.Proof.DatasetPrintTotal
import Verif.Proof.DatasetFinds

/-!
# Properties C20–C24, C29: printing, cloning and building datasets
-/

namespace Xcore.Dataset

/-! ## C20 -/

/-- **C20** Whatever order the runtime iterates in, at every nesting level, `String` of a dataset, wrapper or collection and `GoString`
give the same text. -/
theorem C20_string_is_deterministic (x : Ext) {n n' : Nat} {h : Heap} {v : Val} :
    (∀ s s', Prints x n h v s → Prints x n' h v s' → s = s') ∧ (∀ s s', GoPrints x n h v s → GoPrints x n' h v s' → s = s') := by
  constructor
  · intro s s' h1 h2
    rw [prints_iff] at h1 h2
    have e1 := sprint_le (Nat.le_max_left n n') h1
    have e2 := sprint_le (Nat.le_max_right n n') h2
    rw [e1] at e2; exact Option.some.inj e2
  · intro s s' h1 h2
    rw [goPrints_iff] at h1 h2
    have e1 := goSprint_le (Nat.le_max_left n n') h1
    have e2 := goSprint_le (Nat.le_max_right n n') h2
    rw [e1] at e2; exact Option.some.inj e2

/-- **C20** The `String` and `GoString` methods of the model give exactly the texts possible for some iteration order. -/
theorem C20_string_is_the_text_of_every_order (x : Ext) {n : Nat} {h : Heap} (wf : WF h) {a t : Addr} (w : Wraps h a t) (s : Str) :
    (dsString x n h a = .ok s ↔ Prints x n h (.ptr t) s) ∧ (dsGoString x n h a = .ok s ↔ GoPrints x n h (.ptr t) s) := by
  have ht := (target_iff wf).2 w
  rw [prints_iff, goPrints_iff]
  constructor
  · simp only [dsString, ht]
    cases sprint x n h (.ptr t) <;> simp [ofFuel]
  · simp only [dsGoString, ht]
    cases goSprint x n h (.ptr t) <;> simp [ofFuel]

/-- **C20** `String` of a dataset with entries `m` is the list of `key:value` items, one for each entry, in increasing byte order. -/
theorem C20_lists_every_entry_once_sorted (x : Ext) {n : Nat} {h : Heap} (wf : WF h) {a t : Addr} {m : AMap Val} (w : Wraps h a t)
    (ho : h[t]? = some (.ds m)) {s : Str} (e : dsString x (n + 1) h a = .ok s) :
    ∃ lines sorted : List Str,
      All2 (fun (p : Str × Val) line => ∃ text, Prints x n h p.2 text ∧ line = p.1 ++ b!":" ++ text) m lines ∧
      sorted.Perm lines ∧ SortedList sorted ∧ s = b!"xcore.XDataset{" ++ join b!" " sorted ++ b!"}" := by
  have hp := (C20_string_is_the_text_of_every_order x wf w s).1.1 e
  simp only [Prints, ho] at hp
  obtain ⟨visited, lines, sorted, h1, h2, h3, h4, h5⟩ := hp
  obtain ⟨lines', h6, h7⟩ := All2.perm h1 h2
  exact ⟨lines', sorted, h6, h3.trans h7, h4, h5⟩

/-- **C20** `String` of a collection lists its elements in order, each as position, colon, text and space. -/
theorem C20_lists_every_element_in_order (x : Ext) {n : Nat} {h : Heap} {c : Addr} {l : List (Option Addr)} {ts : Bool}
    (ho : h[c]? = some (if ts then .colTS l else .col l)) {s : Str} (e : sprint x (n + 1) h (.ptr c) = some s) :
    ∃ texts : List Str,
      All2 (fun (d : Option Addr) text => (d = none ∧ text = b!"<nil>") ∨ ∃ b, d = some b ∧ Prints x n h (.ptr b) text) l texts ∧
      s = (if ts then b!"XDatasetCollectionTS[" else b!"XDatasetCollection[") ++ listed texts ++ b!"]" := by
  have hp := (prints_iff ..).2 e
  cases ts <;> (
    simp only [Bool.false_eq_true, if_false, if_true] at ho ⊢
    simp only [Prints, ho] at hp
    obtain ⟨texts, h1, h2⟩ := hp
    refine ⟨texts, h1.imp fun d t _ hd => ?_, h2⟩
    cases d with
    | none => exact Or.inl ⟨rfl, hd⟩
    | some b => exact Or.inr ⟨b, rfl, hd⟩)

/-- **C20** `String` and `GoString` called on a dataset panic exactly if it is a wrapper around nothing. -/
theorem C20_string_panics_only_around_nothing (x : Ext) (n : Nat) {h : Heap} (wf : WF h) (a : Addr) :
    (dsString x n h a = .panic ↔ ¬ ∃ t, Wraps h a t) ∧ (dsGoString x n h a = .panic ↔ ¬ ∃ t, Wraps h a t) := by
  have ht : (∃ t, Wraps h a t) ↔ ∃ t, target h a = some t :=
    ⟨fun ⟨t, w⟩ => ⟨t, (target_iff wf).2 w⟩, fun ⟨t, w⟩ => ⟨t, (target_iff wf).1 w⟩⟩
  rw [ht]
  unfold dsString dsGoString
  cases target h a with
  | none => simp
  | some t =>
    simp only [Option.some.injEq, exists_eq', not_true_eq_false, iff_false]
    constructor
    · cases sprint x n h (.ptr t) <;> simp [ofFuel]
    · cases goSprint x n h (.ptr t) <;> simp [ofFuel]

/-- **C20** Printing acyclic data ends. -/
theorem C20_string_terminates (x : Ext) {h : Heap} (wf : WF h) {a : Addr} (ha : a < h.length) (hac : Acyclic h a) :
    ∃ n s g, Prints x n h (.ptr a) s ∧ GoPrints x n h (.ptr a) g := by
  obtain ⟨⟨s, h1⟩, ⟨g, h2⟩⟩ := sprint_total x wf ha hac (Nat.lt_succ_self (2 * h.length))
  exact ⟨_, s, g, (prints_iff ..).2 h1, (goPrints_iff ..).2 h2⟩

/-- The sample memory is acyclic: every reference from 0–3 is to an object of a higher rank. -/
theorem sample_acyclic : Acyclic sample 4 := by
  -- rank of an object: what it refers to has a smaller rank
  let rank : Addr → Nat := fun a => [3, 0, 0, 1, 4].getD a 0
  have hr : ∀ a b, Refers sample a b → rank b < rank a := by
    intro a b r
    have hlt := (refers_lt sample_wf r).1
    have : a < 5 := hlt
    match a, this with
    | 0, _ =>
      obtain ⟨k, v, hk, hb⟩ := refers_ds (m := [(b!"n", .int .int 7), (b!"d", .ptr 1), (b!"c", .ptr 3), (b!"n>x", .str b!"lit")]) rfl r
      simp at hk
      rcases hk with h | h | h | h <;> rw [h.2] at hb <;> rcases hb with hb | ⟨_, hb⟩ <;> cases hb <;> decide
    | 1, _ =>
      obtain ⟨k, v, hk, hb⟩ := refers_ds (m := [(b!"s", .str b!"v")]) rfl r
      simp at hk; rw [hk.2] at hb; rcases hb with hb | ⟨_, hb⟩ <;> cases hb
    | 2, _ =>
      obtain ⟨k, v, hk, hb⟩ := refers_ds (m := [(b!"k", .bool true)]) rfl r
      simp at hk; rw [hk.2] at hb; rcases hb with hb | ⟨_, hb⟩ <;> cases hb
    | 3, _ =>
      have := refers_col (l := [some 2]) (Or.inl rfl) r
      simp at this; subst this; decide
    | 4, _ =>
      cases r with
      | ptr h1 hk => cases h1
      | slice h1 hk => cases h1
      | wrapped h1 => cases h1; decide
      | elem h1 hk => rcases h1 with h1 | h1 <;> cases h1
  intro b c _ hbc hcb
  have : ∀ {x y}, Reach sample x y → rank y ≤ rank x := by
    intro x y r
    induction r with
    | refl => exact Nat.le_refl _
    | step h1 _ ih => have := hr _ _ h1; omega
  have h1 := hr b c hbc
  have h2 := this hcb
  omega

theorem sample_clean : Clean sample 4 := by
  intro b r
  have hb : b < 5 := reach_lt sample_wf r (by decide)
  match b, hb with
  | 0, _ => exact ⟨by simp [sample], by rintro l (h | h) <;> cases h⟩
  | 1, _ => exact ⟨by simp [sample], by rintro l (h | h) <;> cases h⟩
  | 2, _ => exact ⟨by simp [sample], by rintro l (h | h) <;> cases h⟩
  | 3, _ => exact ⟨by simp [sample], by rintro l (h | h) <;> cases h; simp⟩
  | 4, _ => exact ⟨by simp [sample], by rintro l (h | h) <;> cases h⟩

/-- Non-vacuity: the text of the sample, in sorted order. -/
example : Wraps sample 4 0 ∧ Acyclic sample 4 ∧ dsString someExt 9 sample 4 =
    .ok b!"xcore.XDataset{c:XDatasetCollection[0:xcore.XDataset{k:true} ] d:xcore.XDataset{s:v} n:7 n>x:lit}" :=
  ⟨.wrapper rfl (.plain rfl), sample_acyclic, by decide⟩

/-- Non-vacuity: a collection with a nil element; a wrapper around nothing. -/
example : sprint someExt 5 [.ds [(b!"k", .bool true)], .colTS [some 0, none]] (.ptr 1) =
    some b!"XDatasetCollectionTS[0:xcore.XDataset{k:true} 1:<nil> ]" ∧ dsString someExt 5 [.dsTS none] 0 = .panic := by decide

/-! ## C21 -/

/-- **C21** `Clone` of acyclic data without nil parts ends (without panic), and gives the same result for every sufficient bound on the nesting. -/
theorem C21_clone_terminates {h : Heap} (wf : WF h) {a : Addr} (ha : a < h.length) (hac : Acyclic h a) (hcl : Clean h a) :
    ∃ h' c, ∀ d, h.length < d → cloneVal d h (.ptr a) = .ok (h', .ptr c) := by
  obtain ⟨h', w, e⟩ := clone_total wf ha hac hcl (Nat.lt_succ_self h.length)
  obtain ⟨c, rfl, _⟩ := clone_new wf ha e
  exact ⟨h', c, fun d hd => cloneVal_le e hd⟩

/-- **C21** The clone answers every query as the original: every key and path, with every getter, and String and GoString. Nothing that existed
before changes. -/
theorem C21_clone_gives_same_answers {h h' : Heap} (wf : WF h) {d : Nat} {a c : Addr} (ha : a < h.length)
    (e : cloneVal d h (.ptr a) = .ok (h', .ptr c)) :
    SameAnswers h a h' c ∧ ((∃ l, IsCollection h a l) → SameCollection h a h' c) ∧ ∀ b, b < h.length → h'[b]? = h[b]? := by
  obtain ⟨wf', g, cp⟩ := clone_copy (v := .ptr a) wf ha e
  have B := copy_bisim wf g h.length
  have r : Valid h (.ptr a) ∧ ∃ n, CopyN h.length n h' (.ptr a) (.ptr c) := ⟨(ha : a < h.length), d, cp⟩
  exact ⟨B.sameAnswers wf wf' r, fun ⟨l, hl⟩ => B.sameCollection wf wf' r hl, fun b hb => g.get_lt hb⟩

/-- **C21** The clone is of the same kind as the original: dataset for dataset, thread-safe for thread-safe, and so on. -/
theorem C21_clone_has_same_kind {h h' : Heap} (wf : WF h) {d : Nat} {a c : Addr} (ha : a < h.length)
    (e : cloneVal d h (.ptr a) = .ok (h', .ptr c)) :
    ((∃ m, h[a]? = some (.ds m)) → ∃ m, h'[c]? = some (.ds m)) ∧ ((∃ i, h[a]? = some (.dsTS i)) → ∃ i, h'[c]? = some (.dsTS i)) ∧
    ((∃ l, h[a]? = some (.col l)) → ∃ l, h'[c]? = some (.col l)) ∧ ((∃ l, h[a]? = some (.colTS l)) → ∃ l, h'[c]? = some (.colTS l)) := by
  obtain ⟨wf', g, cp⟩ := clone_copy (v := .ptr a) wf ha e
  obtain ⟨c', e', ro⟩ := (copy_bisim wf g h.length).ptr (a := a) (w := .ptr c) ⟨(ha : a < h.length), d, cp⟩
  cases e'
  generalize h[a]? = o at ro
  generalize h'[c]? = o' at ro
  cases ro <;> simp

/-- Non-vacuity: the sample can be cloned; the clone has the same deep values. -/
example : WF sample ∧ Acyclic sample 4 ∧ Clean sample 4 ∧
    ∃ h' c, cloneVal 6 sample (.ptr 4) = .ok (h', .ptr c) ∧ get h' c b!"c>0>k" = .ok (some (.bool true)) ∧ 5 ≤ c :=
  ⟨sample_wf, sample_acyclic, sample_clean, _, _, rfl, by decide⟩

/-! ## C22 -/

/-- **C22** A program that holds any objects that existed before `Clone` (the original and everything else), but not the clone, cannot change
any answer of the clone, whatever calls it makes. -/
theorem C22_clone_is_not_affected {h h' h2 : Heap} (wf : WF h) {d : Nat} {a c : Addr} (ha : a < h.length)
    (e : cloneVal d h (.ptr a) = .ok (h', .ptr c)) {K : Addr → Prop} (hK : ∀ b, K b → b < h.length) {calls : List Call}
    (p : Program K h' calls h2) :
    SameAnswers h' c h2 c ∧ ((∃ l, IsCollection h' c l) → SameCollection h' c h2 c) := by
  obtain ⟨wf', g, cp⟩ := clone_copy (v := .ptr a) wf ha e
  have hv : Valid h' (.ptr c) := CopyN.valid (v := .ptr a) (Nat.lt_of_lt_of_le ha g.length : a < h'.length) cp
  refine (program_sameAnswers p wf' (fun b hb => Nat.lt_of_lt_of_le (hK b hb) g.length) hv ?_).2
  rintro b ⟨r, hr, hrb⟩ hcb
  have h1 := old_reach wf g (hK r hr) hrb
  have h2 := fun hb => copy_reach wf' cp hcb hb
  constructor
  · intro hd; have := h2 (Or.inl hd); omega
  · intro l hl; have := h2 (Or.inr ⟨l, hl⟩); omega

/-- **C22** A program that holds only the clone cannot change any answer of any dataset or collection that existed before `Clone`. -/
theorem C22_original_is_not_affected {h h' h2 : Heap} (wf : WF h) {d : Nat} {a c : Addr} (ha : a < h.length)
    (e : cloneVal d h (.ptr a) = .ok (h', .ptr c)) {b : Addr} (hb : b < h.length) {calls : List Call}
    (p : Program (fun x => x = c) h' calls h2) :
    SameAnswers h' b h2 b ∧ ((∃ l, IsCollection h' b l) → SameCollection h' b h2 b) := by
  obtain ⟨wf', g, cp⟩ := clone_copy (v := .ptr a) wf ha e
  have hv : Valid h' (.ptr c) := CopyN.valid (v := .ptr a) (Nat.lt_of_lt_of_le ha g.length : a < h'.length) cp
  refine (program_sameAnswers p wf' (by rintro _ rfl; exact hv) (Nat.lt_of_lt_of_le hb g.length) ?_).2
  rintro x ⟨r, rfl, hrb⟩ hbx
  have h1 := old_reach wf g hb hbx
  have h2 := fun hx => copy_reach wf' cp hrb hx
  constructor
  · intro hd; have := h2 (Or.inl hd); omega
  · intro l hl; have := h2 (Or.inr ⟨l, hl⟩); omega

/-- Non-vacuity: a program that holds the original changes a nested dataset, empties the collection and changes the top level. The original
answers differently, the clone does not. -/
example : let h' := match cloneVal 6 sample (.ptr 4) with | .ok r => r.1 | _ => []
    let calls : List Call := [.set 1 b!"s" (.str b!"changed"), .pop 3, .set 4 b!"n" .nil]
    let h2 := calls.foldl (fun h c => c.run h) h'
    Program (fun x => x = 4) h' calls h2 ∧ cloneVal 6 sample (.ptr 4) = .ok (h', .ptr 9) ∧
    get h2 4 b!"d>s" = .ok (some (.str b!"changed")) ∧ get h2 9 b!"d>s" = .ok (some (.str b!"v")) ∧
    get h2 4 b!"c>0>k" = .ok none ∧ get h2 9 b!"c>0>k" = .ok (some (.bool true)) := by
  refine ⟨?_, rfl, by decide⟩
  refine .call ⟨Or.inl ⟨_, rfl⟩, trivial⟩ ?_ (.call ⟨_, Or.inl rfl⟩ ?_ (.call ⟨Or.inr ⟨_, rfl⟩, trivial⟩ ?_ .done))
  · rintro b (rfl | (hb | ⟨_, hb⟩))
    · exact ⟨4, rfl, .step (.wrapped rfl) (.step (.ptr (k := b!"d") rfl (by decide)) .refl)⟩
    · cases hb
    · cases hb
  · rintro b rfl
    exact ⟨3, Or.inl ⟨4, rfl, .step (.wrapped rfl) (.step (.ptr (k := b!"c") rfl (by decide)) .refl)⟩, .refl⟩
  · rintro b (rfl | (hb | ⟨_, hb⟩))
    · exact ⟨4, Or.inl ⟨4, Or.inl ⟨4, rfl, .refl⟩, .refl⟩, .refl⟩
    · cases hb
    · cases hb

/-! ## C23 -/

/-- **C23** is false: a slice obtained from the clone is the slice of the original; what is written through it is seen through the original.
The same holds for a language table. -/
theorem C23_slices_and_languages_are_shared :
    (∃ (h h' : Heap) (c b : Addr), WF h ∧ cloneVal 9 h (.ptr 1) = .ok (h', .ptr c) ∧ getSlice .string h' c b!"k" = .ok (some b) ∧
      getString someExt 9 (writeSlice h' b 0 (.str b!"new")) 1 b!"k" ≠ getString someExt 9 h' 1 b!"k") ∧
    (∃ (h h' : Heap) (c b : Addr), WF h ∧ cloneVal 9 h (.ptr 1) = .ok (h', .ptr c) ∧ get h' c b!"k" = .ok (some (.ptr b)) ∧
      getString someExt 9 (writeLang h' b b!"e" b!"new") 1 b!"k" ≠ getString someExt 9 h' 1 b!"k") := by
  refine ⟨⟨[.slice [.str b!"old"], .ds [(b!"k", .slice .string 0)]], _, _, _, ?_, rfl, rfl, by decide⟩,
    ⟨[.lang ⟨[], [], [], []⟩, .ds [(b!"k", .ptr 0)]], _, _, _, ?_, rfl, rfl, by decide⟩⟩
  · rw [wf_iff]
    intro a o ho
    have : a < 2 := lt_of_getElem? ho
    match a, this with
    | 0, _ => cases ho; trivial
    | 1, _ => cases ho; exact ⟨by decide, by intro k v hb; simp at hb; rw [hb.2]; exact ⟨_, rfl⟩⟩
  · rw [wf_iff]
    intro a o ho
    have : a < 2 := lt_of_getElem? ho
    match a, this with
    | 0, _ => cases ho; trivial
    | 1, _ => cases ho; exact ⟨by decide, by intro k v hb; simp at hb; rw [hb.2]; exact (by decide : (0 : Nat) < 2)⟩

/-- **C23** (partial: slices and language tables are shared, see `C23_slices_and_languages_are_shared`) No dataset and no collection can be reached
both from the clone and from an object that existed before. -/
theorem C23_no_shared_dataset_or_collection_partial {h h' : Heap} (wf : WF h) {d : Nat} {a c : Addr} (ha : a < h.length)
    (e : cloneVal d h (.ptr a) = .ok (h', .ptr c)) {b x : Addr} (hb : b < h.length) (r1 : Reach h' c x) (r2 : Reach h' b x) :
    ¬ IsDataset h' x ∧ ∀ l, ¬ IsCollection h' x l := by
  obtain ⟨wf', g, cp⟩ := clone_copy (v := .ptr a) wf ha e
  have h1 := old_reach wf g hb r2
  have h2 := fun hx => copy_reach wf' cp r1 hx
  constructor
  · intro hd; have := h2 (Or.inl hd); omega
  · intro l hl; have := h2 (Or.inr ⟨l, hl⟩); omega

/-! ## C24 -/

/-- **C24** The dataset `NewXDataset` returns mirrors the Go map: nested maps are datasets, slices of maps are collections in the same order, a
`[]interface{}` is the collection of its maps, everything else is stored as it is. -/
theorem C24_new_dataset_mirrors_the_map (h : Heap) {m : List (Str × Raw)} (g : GoValue (.map m)) :
    Mirrors (newXDataset h m).1 (.map m) (.ptr (newXDataset h m).2) ∧ ∀ b, b < h.length → (newXDataset h m).1[b]? = h[b]? :=
  ⟨(newXDataset_mirrors g).2, fun _ hb => (newXDataset_mirrors g).1.get_lt hb⟩

/-- **C24** What a path finds in the nested Go map, `Get` of the path finds in the dataset. -/
theorem C24_get_finds {h : Heap} (wf : WF h) {m : List (Str × Raw)} (g : GoValue (.map m)) (hv : ∀ v, Occurs v (.map m) → Valid h v)
    {path : Str} {r : Raw} (f : Finds m (split 62 path) r) :
    ∃ v, get (newXDataset h m).1 (newXDataset h m).2 path = .ok (some v) ∧ Mirrors (newXDataset h m).1 r v := by
  obtain ⟨v, h1, h2⟩ := finds_leads f (newXDataset_mirrors (h := h) g).2
  have wf' := (newXDataset_built (fun _ => True) wf hv (fun _ _ _ _ => trivial)).wf
  exact ⟨v, leads_getSegs wf' h1, h2⟩

/-- **C24** In particular a scalar is found as it is, a map as a dataset, a slice of maps as a collection with as many elements. -/
theorem C24_get_finds_by_kind {h : Heap} (wf : WF h) {m : List (Str × Raw)} (g : GoValue (.map m)) (hv : ∀ v, Occurs v (.map m) → Valid h v)
    {path : Str} :
    let h' := (newXDataset h m).1
    let a := (newXDataset h m).2
    (∀ v, Finds m (split 62 path) (.val v) → get h' a path = .ok (some v)) ∧
    (∀ m', Finds m (split 62 path) (.map m') → ∃ b, getDataset h' a path = .ok (some b)) ∧
    (∀ l, Finds m (split 62 path) (.maps l) → ∃ b, getCollection h' a path = .ok (some b) ∧ count h' b = l.length) ∧
    (∀ l, Finds m (split 62 path) (.anys l) → ∃ b, getCollection h' a path = .ok (some b) ∧ count h' b = (onlyMaps l).length) := by
  intro h' a
  have col : ∀ l v, get h' a path = .ok (some v) → Mirrors h' (.maps l) v → ∃ b, getCollection h' a path = .ok (some b) ∧ count h' b = l.length := by
    intro l v h1 h2
    obtain ⟨c, es, rfl, h3, h4, _⟩ := h2.of_maps
    refine ⟨c, ?_, ?_⟩
    · simp only [getCollection, h1, Res.map, Option.bind, asCollection, h3]
    · simp only [count, elems, h3, h4]
  refine ⟨?_, ?_, ?_, ?_⟩
  · intro v f
    obtain ⟨w, h1, h2⟩ := C24_get_finds wf g hv f
    cases h2; exact h1
  · intro m' f
    obtain ⟨w, h1, h2⟩ := C24_get_finds wf g hv f
    obtain ⟨b, m'', rfl, h3, _⟩ := h2.of_map
    refine ⟨b, ?_⟩
    have h1' : get h' a path = .ok (some (.ptr b)) := h1
    have h3' : h'[b]? = some (.ds m'') := h3
    simp only [getDataset, h1', Res.map, Option.bind, asDataset, h3']
  · intro l f
    obtain ⟨w, h1, h2⟩ := C24_get_finds wf g hv f
    exact col l w h1 h2
  · intro l f
    obtain ⟨w, h1, h2⟩ := C24_get_finds wf g hv f
    exact col _ w h1 h2.of_anys

/-- **C24** Conversely `Get` finds nothing else, if no key of the source contains `>` and no value in it is itself a dataset or collection. -/
theorem C24_get_finds_nothing_else {h : Heap} (wf : WF h) {m : List (Str × Raw)} (g : GoValue (.map m))
    (hv : ∀ v, Occurs v (.map m) → Valid h v ∧ Plain h v) (hk : ∀ k, HasKey k (.map m) → 62 ∉ k) {path : Str} {v : Val}
    (e : get (newXDataset h m).1 (newXDataset h m).2 path = .ok (some v)) :
    ∃ r, Finds m (split 62 path) r ∧ Mirrors (newXDataset h m).1 r v := by
  obtain ⟨gr, mi⟩ := newXDataset_mirrors (h := h) g
  exact leads_finds (getSegs_leads e) mi hk fun v ho => plain_grow gr (hv v ho).1 (hv v ho).2

/-- Non-vacuity: a map with a scalar, a nested map, a slice of maps and a mixed slice whose first item is not a map. -/
example : let m : List (Str × Raw) := [(b!"n", .val (.int .int 7)), (b!"d", .map [(b!"s", .val (.str b!"v"))]),
      (b!"c", .maps [[(b!"k", .val (.bool true))], []]), (b!"x", .anys [.val .nil, .map [(b!"y", .val (.str b!"z"))]])]
    GoValue (.map m) ∧ Finds m (split 62 b!"x>0>y") (.val (.str b!"z")) ∧
    get (newXDataset [] m).1 (newXDataset [] m).2 b!"x>0>y" = .ok (some (.str b!"z")) ∧
    get (newXDataset [] m).1 (newXDataset [] m).2 b!"c>0>k" = .ok (some (.bool true)) := by
  refine ⟨?_, ?_, by decide, by decide⟩
  · refine .map (by decide) ?_
    intro k r hk
    simp at hk
    rcases hk with ⟨_, rfl⟩ | ⟨_, rfl⟩ | ⟨_, rfl⟩ | ⟨_, rfl⟩
    · exact .val
    · exact .map (by decide) (by intro k r hk; simp at hk; rw [hk.2]; exact .val)
    · refine .maps ?_
      intro m hm
      simp at hm
      rcases hm with rfl | rfl
      · exact .map (by decide) (by intro k r hk; simp at hk; rw [hk.2]; exact .val)
      · exact .map (by decide) (by simp)
    · refine .anys ?_
      intro r hr
      simp at hr
      rcases hr with rfl | rfl
      · exact .val
      · exact .map (by decide) (by intro k r hk; simp at hk; rw [hk.2]; exact .val)
  · exact .through (l := [[(b!"y", .val (.str b!"z"))]]) (i := 0) (Or.inr ⟨_, by simp; rfl, rfl⟩) (by decide) rfl (.key (by simp))

/-! ## C29 -/

/-- **C29** `Clone` of a wrapper around the dataset `t`, through any number of wrappers, is a wrapper around a new dataset; both answer as `t`. -/
theorem C29_clone_of_wrapper {h h' : Heap} (wf : WF h) {d : Nat} {a t c : Addr} (w : Wraps h a t)
    (e : cloneVal d h (.ptr a) = .ok (h', .ptr c)) :
    ∃ t', Wraps h' c t' ∧ h.length ≤ t' ∧ SameAnswers h t h' t' ∧ SameAnswers h a h' c := by
  have ha : a < h.length := isDataset_lt (wraps_isDataset w)
  obtain ⟨m, hm⟩ := wraps_ds w
  obtain ⟨wf', g, cp⟩ := clone_copy (v := .ptr a) wf ha e
  have w' : Wraps h' a t := by
    clear e cp ha
    induction w with
    | plain h1 => exact .plain (g.get h1)
    | wrapper h1 _ ih => exact .wrapper (g.get h1) (ih hm)
  obtain ⟨t', n', h1, h2⟩ := wraps_copy w' cp
  have B := copy_bisim wf g h.length
  refine ⟨t', h1, copy_container h2 (Or.inl (Or.inl (wraps_ds h1))), ?_, ?_⟩
  · exact B.sameAnswers wf wf' ⟨(lt_of_getElem? hm : t < h.length), n', h2⟩
  · exact B.sameAnswers wf wf' ⟨(ha : a < h.length), d, cp⟩

/-- Non-vacuity. -/
example : Wraps sample 4 0 ∧ ∃ h', cloneVal 6 sample (.ptr 4) = .ok (h', .ptr 9) ∧ Wraps h' 9 8 :=
  ⟨.wrapper rfl (.plain rfl), _, rfl, .wrapper rfl (.plain rfl)⟩

end Xcore.Dataset
