import Verif.Spec.NestedAtomic

/-! # Histories of calls, and objects whose calls take effect at once -/

namespace Xcore.Nested

open Dataset

/-- What is seen of an execution: a goroutine begins a call, a call ends with an answer, a new object is made. -/
inductive Obs where
  | begins (i : Nat) (call : Call)
  | ends (i : Nat) (ans : Option Val)
  | makes (o : Obj)
  deriving DecidableEq

/-- The path keys for which answers are claimed: `K a key` for `Get(key)` of the wrapper `a`. -/
abbrev Paths := Nat → Str → Prop

/-- All pairs are private, and the paths lead through private datasets (`Along` in Verif/Spec/NestedAtomic.lean). -/
def Tidy (T : Pairs) (K : Paths) (c : Conf) : Prop := AllPrivate T c ∧ ∀ a key, K a key → Along T c.heap a (split 62 key)

/-- The calls: entries are changed through the wrappers of private datasets only, the contents of language tables (not modelled here) not at
all. -/
def Allowed (T : Pairs) : Call → Prop
  | .ds (.set _ _) a | .ds (.del _) a => ∃ d, T a d
  | .lang m _ => m = .read
  | _ => True

/-- The executions in which `P` always holds, no panic leaves a lock behind and the calls are `Allowed`; with what is seen of them. -/
inductive History (T : Pairs) (P : Conf → Prop) (c0 : Conf) : List Obs → Conf → Prop where
  | start : P c0 → History T P c0 [] c0
  | begins {w : List Obs} {c : Conf} {i : Nat} {call : Call} : History T P c0 w c → ¬ Busy c i → call.Legal c.heap → Allowed T call →
      P { c with gor := c.go i call.code } → History T P c0 (w ++ [.begins i call]) { c with gor := c.go i call.code }
  | makes {w : List Obs} {c : Conf} {o : Obj} : History T P c0 w c → P { c with heap := c.heap ++ [o] } →
      History T P c0 (w ++ [.makes o]) { c with heap := c.heap ++ [o] }
  | goes {w : List Obs} {c c' : Conf} {i : Nat} : History T P c0 w c → Move c i c' → Calm c i → Busy c' i → P c' → History T P c0 w c'
  | ends {w : List Obs} {c c' : Conf} {i : Nat} : History T P c0 w c → Move c i c' → Calm c i → ¬ Busy c' i → P c' →
      History T P c0 (w ++ [.ends i (c'.gor i).ans]) c'

/-- What a call does when nobody disturbs it: memory before, answer, memory after. Methods without answer leave any. About the answers of
`String`, `Clone`, `GetData` and of paths not in `K` nothing is said. -/
def Does (K : Paths) : Call → Heap → Option Val → Heap → Prop
  | .ds (.get segs) a, h, ans, h' => h' = h ∧ ∀ key, K a key → segs = split 62 key → Dataset.get h a key = .ok ans
  | .ds (.set key v) a, h, _, h' => Dataset.set h a key v = .ok h'
  | .ds (.del key) a, h, _, h' => Dataset.del h a key = .ok h'
  | .col (.unshift d) c, h, _, h' => h' = Dataset.unshift h c d
  | .col (.push d) c, h, _, h' => h' = Dataset.push h c d
  | .col .shift c, h, ans, h' => ∃ d, Dataset.shift h c = .ok (h', d) ∧ ans = some (elemVal d)
  | .col .pop c, h, ans, h' => ∃ d, Dataset.pop h c = .ok (h', d) ∧ ans = some (elemVal d)
  | .col .count c, h, ans, h' => h' = h ∧ ans = some (.int .int (Dataset.count h c))
  | .col (.get n) c, h, ans, h' => h' = h ∧ ans = (Dataset.colGetAt h c n).map elemVal
  | _, h, _, h' => h' = h

/-- Where a goroutine is that uses objects whose calls take effect at once. -/
inductive Phase where
  | idle
  /-- the call has begun and not had its effect -/
  | waiting (call : Call)
  /-- the call has had its effect and not ended -/
  | done (ans : Option Val)

/-- Objects whose calls take effect at once: between its beginning and its end every call has, at one moment, the whole effect of `Does`.
What is seen, memory, where the goroutines are. -/
inductive Atomic (K : Paths) (h0 : Heap) : List Obs → Heap → (Nat → Phase) → Prop where
  | start : Atomic K h0 [] h0 fun _ => .idle
  | begins {w : List Obs} {h : Heap} {f : Nat → Phase} {i : Nat} {call : Call} : Atomic K h0 w h f → f i = .idle →
      Atomic K h0 (w ++ [.begins i call]) h fun j => if j = i then .waiting call else f j
  | takes {w : List Obs} {h h' : Heap} {f : Nat → Phase} {i : Nat} {call : Call} {ans : Option Val} : Atomic K h0 w h f → f i = .waiting call →
      Does K call h ans h' → Atomic K h0 w h' fun j => if j = i then .done ans else f j
  | ends {w : List Obs} {h : Heap} {f : Nat → Phase} {i : Nat} {ans : Option Val} : Atomic K h0 w h f → f i = .done ans →
      Atomic K h0 (w ++ [.ends i ans]) h fun j => if j = i then .idle else f j
  | makes {w : List Obs} {h : Heap} {f : Nat → Phase} {o : Obj} : Atomic K h0 w h f → Atomic K h0 (w ++ [.makes o]) (h ++ [o]) f

end Xcore.Nested
