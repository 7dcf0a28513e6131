import Verif.Proof.V1.DataClone

/-!
# Property C109: pages of version 1 from cloned data

`Content`, `Pointers`, `shown` and `dumped` are in Verif/Spec/V1/Page.lean, `Program` is in Verif/Spec/V1/Dataset.lean (C72).
-/

namespace Xcore.V1.Page

open Xcore.Template (Kind Param Doc)
open Xcore.Dataset (Ext Val)
open Xcore.V1.Dataset
open Xcore.V1.Template hiding langOf

/-- **C109** If `Clone` of a dataset ends, then the dataset has a content and the clone has the same. -/
theorem C109_clone_has_the_same_content {h h' : Heap} (wf : WF h) (hp : Pointers h) {k a c : Nat} (hd : IsDataset h a)
    (e : cloneVal k h (.ptr a) = .ok (h', .ptr c)) : ∃ fs, Content h (some a) (some fs) ∧ Content h' (some c) (some fs) := by
  obtain ⟨_, fs, h1, h2⟩ := clone_content wf hp hd e
  exact ⟨fs, h1, h2⟩

/-- **C109** `Execute` does the same with a clone of the data as with the data, although the clone is made of other objects: same text or panic.
Unlike version 2 (C64), also if parts of the data are shared. -/
theorem C109_clone_renders_the_same {x : Ext} {th th' : THeap} {s : Str} {t : Nat} {d : Doc} (hm : Means s d) (e : newFromString th s = (th', some t))
    {h h' : Heap} (hp : Pointers h) {k a c : Nat} (hd : Proper h (some a)) (ec : cloneVal k h (.ptr a) = .ok (h', .ptr c)) {n m : Nat} (hn : nesting d < n)
    (hm' : nesting d < m) : execute x th' n t h (some a) = execute x th' m t h' (some c) := by
  obtain ⟨wf', fs, h1, h2⟩ := clone_content hd.wf hp (hd.data a rfl) ec
  have hp' : Proper h' (some c) := ⟨wf', fun b e => by cases e; exact (clone_kind ec).1 (hd.data a rfl)⟩
  rw [execute_page (new_compiled hm e) hd (fs := some fs) h1 hn, execute_page (new_compiled hm e) hp' (fs := some fs) h2 hm']

/-- **C109** `String` and `GoString` of the clone are those of the data. -/
theorem C109_clone_prints_the_same {h h' : Heap} (wf : WF h) (hp : Pointers h) {k a c : Nat} (hd : IsDataset h a)
    (e : cloneVal k h (.ptr a) = .ok (h', .ptr c)) (x : Ext) :
    ∃ n, ∀ m, n ≤ m → sprint x m h (.ptr a) = sprint x m h' (.ptr c) ∧ goSprint x m h (.ptr a) = goSprint x m h' (.ptr c) := by
  obtain ⟨_, fs, h1, h2⟩ := clone_content wf hp hd e
  obtain ⟨n1, e1⟩ := holds_sprint x h1
  obtain ⟨n2, e2⟩ := holds_sprint x h2
  obtain ⟨n3, e3⟩ := holds_goSprint x h1
  obtain ⟨n4, e4⟩ := holds_goSprint x h2
  exact ⟨n1 + n2 + n3 + n4, fun m hm => ⟨by rw [sprint_le (by omega) e1, sprint_le (by omega) e2], by rw [goSprint_le (by omega) e3, goSprint_le (by omega) e4]⟩⟩

/-- **C109** A clone is a snapshot: whatever a program that holds objects that existed before `Clone`, but not the clone, then does to them, a
template executed with the clone does what it did with the data when they were cloned. -/
theorem C109_clone_is_a_snapshot {x : Ext} {th th' : THeap} {s : Str} {t : Nat} {d : Doc} (hm : Means s d) (e : newFromString th s = (th', some t))
    {h h' h2 : Heap} (hp : Pointers h) {k a c : Nat} (hd : Proper h (some a)) (ec : cloneVal k h (.ptr a) = .ok (h', .ptr c))
    {K : Nat → Prop} (hK : ∀ b, K b → b < h.length) {calls : List Call} (p : Program K h' calls h2) {n m : Nat} (hn : nesting d < n) (hm' : nesting d < m) :
    execute x th' m t h2 (some c) = execute x th' n t h (some a) := by
  obtain ⟨wf', fs, h1, h3⟩ := clone_content hd.wf hp (hd.data a rfl) ec
  obtain ⟨w2, h4⟩ := clone_kept hd.wf (hd.data a rfl) ec hK p h3
  obtain ⟨_, q, hd2⟩ := holds_isDataset h4
  cases q
  have hp' : Proper h2 (some c) := ⟨w2, fun b e => by cases e; exact hd2⟩
  rw [execute_page (new_compiled hm e) hd (fs := some fs) h1 hn, execute_page (new_compiled hm e) hp' (fs := some fs) h4 hm']

/-- **C109** Conversely, whatever a program that holds only the clone does to it, a template executed with the data does what it did. -/
theorem C109_clone_protects_the_data {x : Ext} {th th' : THeap} {s : Str} {t : Nat} {d : Doc} (hm : Means s d) (e : newFromString th s = (th', some t))
    {h h' h2 : Heap} (hp : Pointers h) {k a c : Nat} (hd : Proper h (some a)) (ec : cloneVal k h (.ptr a) = .ok (h', .ptr c))
    {calls : List Call} (p : Program (fun b => b = c) h' calls h2) {n m : Nat} (hn : nesting d < n) (hm' : nesting d < m) :
    execute x th' m t h2 (some a) = execute x th' n t h (some a) := by
  obtain ⟨wf', fs, h1, h3⟩ := clone_content hd.wf hp (hd.data a rfl) ec
  obtain ⟨w2, h4⟩ := original_kept hd.wf (hd.data a rfl) ec p h1
  obtain ⟨_, q, hd2⟩ := holds_isDataset h4
  cases q
  have hp' : Proper h2 (some a) := ⟨w2, fun b e => by cases e; exact hd2⟩
  rw [execute_page (new_compiled hm e) hd (fs := some fs) h1 hn, execute_page (new_compiled hm e) hp' (fs := some fs) h4 hm']

/-- Data with a shared part (the two elements of the collection are the same dataset) and a slice. -/
def sharedData : Heap :=
  [.ds [(b!"t", .str b!"t"), (b!"l", .ptr 1)], .col [some 2, some 2], .ds [(b!"n", .str b!"one"), (b!"v", .slice .string 3)], .slice [.str b!"a"]]

/-- A clone of them, and a program that changes the data: the page of the clone is still the old one, that of the data is not. -/
example : ∃ th h' h2 c,
    newFromString [] b!"{{t}}@@l:r@@[[r]]<{{n}}{{v}}>[[]]" = (th, some 0) ∧
    Pointers sharedData ∧ Proper sharedData (some 0) ∧ cloneVal 9 sharedData (.ptr 0) = .ok (h', .ptr c) ∧
    Program (fun b => b = 0) h' [.set 0 b!"t" (.str b!"T"), .push 1 none, .set 2 b!"n" (.str b!"two")] h2 ∧
    ∀ x : Ext, execute x th 2 0 sharedData (some 0) = .ok b!"t<one[a]><one[a]>" ∧
      execute x th 2 0 h2 (some c) = .ok b!"t<one[a]><one[a]>" ∧ execute x th 2 0 h2 (some 0) = .panic := by
  refine ⟨_, _, _, _, rfl, ?_, ⟨⟨?_, ?_, ?_⟩, ?_⟩, rfl, .call ⟨⟨_, rfl⟩, trivial⟩ ?_ (.call ⟨⟨_, rfl⟩, ?_⟩ ?_ (.call ⟨⟨_, rfl⟩, trivial⟩ ?_ .done)), fun x => ⟨rfl, rfl, rfl⟩⟩
  · intro a m k b l e hm
    match a with
    | 0 => cases e; simp at hm; obtain ⟨rfl, rfl⟩ := hm; simp [sharedData]
    | 1 => cases e
    | 2 => cases e; simp at hm
    | 3 => cases e
    | n + 4 => simp [sharedData] at e
  · intro a m e
    match a with
    | 0 | 2 => cases e; unfold AMap.Nodup; decide
    | 1 | 3 => cases e
    | n + 4 => simp [sharedData] at e
  · intro a m k v e hm
    match a with
    | 0 => cases e; simp at hm; rcases hm with ⟨rfl, rfl⟩ | ⟨rfl, rfl⟩ <;> simp [Valid, sharedData]
    | 2 => cases e; simp at hm; rcases hm with ⟨rfl, rfl⟩ | ⟨rfl, rfl⟩ <;> simp [Valid, sharedData]
    | 1 | 3 => cases e
    | n + 4 => simp [sharedData] at e
  · intro a l b e hb
    match a with
    | 1 => cases e; simp at hb; subst hb; exact ⟨_, rfl⟩
    | 0 | 2 | 3 => cases e
    | n + 4 => simp [sharedData, IsCollection] at e
  · intro a e; cases e; exact ⟨_, rfl⟩
  · rintro b (rfl | h)
    · exact ⟨_, rfl, .refl⟩
    · rcases h with h | ⟨_, h⟩ <;> cases h
  · intro a e; cases e
  · rintro b (rfl | h)
    · exact ⟨0, Or.inl ⟨0, rfl, .refl⟩, .step (.ptr rfl (k := b!"l") (.tail _ (.head _))) .refl⟩
    · cases h
  · rintro b (rfl | h)
    · exact ⟨0, Or.inl ⟨0, Or.inl ⟨0, rfl, .refl⟩, .refl⟩, .step (.ptr rfl (k := b!"l") (.tail _ (.head _))) (.step (.elem rfl (.head _)) .refl)⟩
    · rcases h with h | ⟨_, h⟩ <;> cases h

/-- **C109** Slices are not copied (C72): what is written to a slice of the data is seen on the page of the clone. -/
theorem C109_slices_are_shared : ∃ th h' c, newFromString [] b!"{{l>0>v}}" = (th, some 0) ∧ cloneVal 9 sharedData (.ptr 0) = .ok (h', .ptr c) ∧
    ∀ x : Ext, execute x th 1 0 h' (some c) = .ok b!"[a]" ∧ execute x th 1 0 (writeSlice h' 3 0 (.str b!"b")) (some c) = .ok b!"[b]" :=
  ⟨_, _, _, rfl, rfl, fun _ => ⟨rfl, rfl⟩⟩

end Xcore.V1.Page
