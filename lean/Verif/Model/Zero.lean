import Verif.Model.Cache
import Verif.Model.TSMethods

/-!
# Objects made without their constructor

The types are exported, so a program can write `&xcore.XLanguage{Name: "n"}`, `&xcore.XCache{Maxitems: 50}` or, as in the package documentation
(v2/xcore.go:302), `&xcore.XDatasetTS{}`. The maps of such a language or cache are nil, and the wrapper holds no dataset. Here maps can be
nil, and a call can find the mutex held for ever: by a call that panicked before an unlock that is not deferred. One goroutine uses the
object and recovers from panics.
-/

namespace Xcore.Zero

/-- A `map[string]V` that can be nil. -/
abbrev GoMap (V : Type) := Option (AMap V)

namespace GoMap

variable {V : Type}

/-- `v, ok := m[k]`: a nil map has no entries. -/
def get : GoMap V → Str → Option V
  | none, _ => none
  | some m, k => AMap.get m k

/-- `m[k] = v` panics on a nil map. -/
def set : GoMap V → Str → V → Res (GoMap V)
  | none, _, _ => .panic
  | some m, k, v => .ok (some (AMap.set m k v))

/-- `delete(m, k)` does nothing on a nil map. -/
def del : GoMap V → Str → GoMap V
  | none, _ => none
  | some m, k => some (AMap.del m k)

/-- What `range m` visits. -/
def pairs : GoMap V → AMap V
  | none => []
  | some m => m

/-- A map after deletions that leave the entries `m'`. -/
def left : GoMap V → AMap V → GoMap V
  | none, _ => none
  | some _, m' => some m'

end GoMap

/-- How a call ends for the caller. -/
inductive Outcome (Ω : Type) where
  | returns (o : Ω)
  | panics
  | blocks
  deriving DecidableEq, Repr

/-! ## XLanguage -/

/-- `XLanguage` (xlanguage.go:17-23); `held` if the mutex is locked between two calls. -/
structure Lang where
  name : Str
  tag : Str
  entries : GoMap Str
  status : GoMap Str
  held : Bool
  deriving DecidableEq, Repr

/-- The calls. -/
inductive LOp where
  | set (e v : Str)
  | get (e : Str)
  | setStatus (e v : Str)
  | getStatus (e : Str)
  | del (e : Str)
  | getEntries
  | getXML
  | toString
  | load (data : Str)
  | loadXML (data : Str)
  | setName (n : Str)
  | setLanguage (t : Str)
  | getName
  | getLanguage
  deriving DecidableEq, Repr

/-- Answers; `failed` is whether an error is returned. -/
inductive LOut where
  | unit
  | str (s : Str)
  | map (m : AMap Str)
  | failed (e : Bool)
  deriving DecidableEq, Repr

/-- A method that takes the lock and defers the unlock. -/
def Lang.locked (l : Lang) (body : Lang × Outcome LOut) : Lang × Outcome LOut := if l.held then (l, .blocks) else body

/-- The entry of a line of `LoadString` (xlanguage.go:151-169), if it has one. -/
def lineEntry (line : Str) : Option (Str × Str) :=
  match indexByte 61 line with
  | none => none
  | some posequal =>
    if line.length = 0 ∨ line.head? = some 35 ∨ line.head? = some 59 then none
    else
      let key := trimSpace (line.take posequal)
      if key.length = 0 then none
      else some (key, if posequal < line.length then trimSpace (line.drop (posequal + 1)) else [])

/-- The loop of `LoadString` (xlanguage.go:150-173): the lock is taken for each entry and the unlock is not deferred. -/
def loadLoop : List Str → Lang → Lang × Outcome Unit
  | [], l => (l, .returns ())
  | line :: lines, l => match lineEntry line with
    | none => loadLoop lines l
    | some (key, value) =>
      if l.held then (l, .blocks)
      else match l.entries.set key value with
        | .ok m => loadLoop lines { l with entries := m }
        | _ => ({ l with held := true }, .panics)

/-- The loop of `LoadXMLString` over the entries (xlanguage.go:119-122); false if it panics. -/
def xmlLoop : List Language.XEntry → Lang → Lang × Bool
  | [], l => (l, true)
  | e :: es, l => match l.entries.set e.id e.entry with
    | .ok m => match l.status.set e.id e.status with
      | .ok s => xmlLoop es { l with entries := m, status := s }
      | _ => ({ l with entries := m }, false)
    | _ => (l, false)

/-- One call on an `XLanguage`: `LoadXMLString` (xlanguage.go:92-124), `LoadString` (148-178), `SetName` … `GetLanguage` (181-198), `Set` …
`Del` (201-242), `GetEntries`, `GetXML`, `String` (245-278). -/
def lstep (unmarshal : Str → Option Language.XLang) (parseTag : Str → Str) (l : Lang) : LOp → Lang × Outcome LOut
  | .set e v => l.locked <| match l.entries.set e v with
    | .ok m => ({ l with entries := m }, .returns .unit)
    | _ => (l, .panics)
  | .get e => l.locked (l, .returns (.str ((l.entries.get e).getD [])))
  | .setStatus e v => l.locked <| match l.status.set e v with
    | .ok m => ({ l with status := m }, .returns .unit)
    | _ => (l, .panics)
  | .getStatus e => l.locked (l, .returns (.str ((l.status.get e).getD [])))
  | .del e => l.locked ({ l with entries := l.entries.del e, status := l.status.del e }, .returns .unit)
  | .getEntries => l.locked (l, .returns (.map (l.entries.pairs.foldl (fun clone p => clone.set p.1 p.2) [])))
  | .getXML => l.locked (l, .returns (.str (
      b!"<?xml version=\"1.0\" encoding=\"UTF-8\" ?>\n<language id=\"" ++ l.name ++ b!"\" lang=\"" ++ l.tag ++ b!"\">\n" ++
        join b!"\n" (sortStrs (l.entries.pairs.map fun p =>
          b!"  <entry id=\"" ++ p.1 ++ b!"\" status=\"" ++ (l.status.get p.1).getD [] ++ b!"\"><![CDATA[" ++ p.2 ++ b!"]]></entry>")) ++
        b!"\n</language>")))
  | .toString => l.locked (l, .returns (.str (
      b!"xcore.XLanguage{" ++ join b!" " (sortStrs (l.entries.pairs.map fun p => p.1 ++ b!":" ++ p.2)) ++ b!"}")))
  | .load data =>
    let r := Language.scan [] data
    match loadLoop r.1 l with
    | (l', .returns _) => (l', .returns (.failed r.2))
    | (l', .panics) => (l', .panics)
    | (l', .blocks) => (l', .blocks)
  | .loadXML data => match unmarshal data with
    | none => (l, .returns (.failed true))
    | some temp =>
      let l1 := { l with name := temp.name, tag := parseTag temp.language }
      l1.locked <| match xmlLoop temp.entries l1 with
        | (l', true) => (l', .returns (.failed false))
        | (l', false) => (l', .panics)
  | .setName n => ({ l with name := n }, .returns .unit)
  | .setLanguage t => ({ l with tag := t }, .returns .unit)
  | .getName => (l, .returns (.str l.name))
  | .getLanguage => (l, .returns (.str l.tag))

/-- A history of calls: the object and the outcomes in order. -/
def lrun (unmarshal : Str → Option Language.XLang) (parseTag : Str → Str) (l : Lang) : List LOp → Lang × List (Outcome LOut)
  | [] => (l, [])
  | op :: h =>
    let r := lstep unmarshal parseTag l op
    let r' := lrun unmarshal parseTag r.1 h
    (r'.1, r.2 :: r'.2)

/-! ## XCache -/

/-- `XCache` (xcache.go:23-39) with a map that can be nil. All methods defer the unlock, so the mutex is free between calls. -/
structure Cache (D : Type) where
  maxitems : Int
  expire : Int
  hasValidator : Bool
  items : GoMap (Cache.Entry D)
  pile : List Str
  deriving DecidableEq, Repr

variable {D : Type}

open Xcore.Cache (Env Entry removeFromPile evictLoop cleanNum past)

/-- `mClean` (xcache.go:198-227). -/
def mClean (c : Cache D) (env : Env) (perc : Int) : Cache D × Option Int :=
  let items := Cache.sweep c.expire env c.items.pairs
  let num := cleanNum items.length perc
  match evictLoop num.toNat items c.pile with
  | (items', some pile') => ({ c with items := c.items.left items', pile := pile' }, some num.toNat)
  | (items', none) => ({ c with items := c.items.left items' }, none)

/-- `Set` (xcache.go:64-78); false if it panics. -/
def cset (c : Cache D) (env : Env) (k : Str) (d : D) : Cache D × Bool :=
  let present := (c.items.get k).isSome
  match c.items.set k { ctime := env.clk 0, rtime := env.clk 1, ttl := 0, data := d } with
  | .ok items =>
    let c := { c with items, pile := (if present then removeFromPile c.pile k else c.pile) ++ [k] }
    if 0 < c.maxitems ∧ c.maxitems ≤ c.items.pairs.length then
      let r := mClean c env 10
      (r.1, r.2.isSome)
    else (c, true)
  | _ => (c, false)

/-- `Del` (xcache.go:178-184). -/
def cdel (c : Cache D) (k : Str) : Cache D := { c with items := c.items.del k, pile := removeFromPile c.pile k }

/-- `SetTTL` (xcache.go:84-91): an assignment to a field of the entry, if there is one. -/
def csetTTL (c : Cache D) (k : Str) (ttl : Int) : Cache D :=
  match c.items.get k with
  | some e => { c with items := c.items.left (AMap.set c.items.pairs k { e with ttl }) }
  | none => c

/-- `Get` (xcache.go:110-115, 121-175). -/
def cget (c : Cache D) (env : Env) (k : Str) : Cache D × (Option D × Bool) :=
  match c.items.get k with
  | some e =>
    if (decide (e.ttl ≠ 0) && past e.ctime e.ttl (env.clk 0)) || (c.hasValidator && !env.valid k e.ctime) ||
        (decide (c.expire ≠ 0) && past e.ctime c.expire (env.clk 1)) then (cdel c k, (none, true))
    else
      ({ c with
          items := c.items.left (AMap.set c.items.pairs k { e with rtime := env.clk 2 }),
          pile := removeFromPile c.pile k ++ [k] },
       (some e.data, false))
  | none => (c, (none, false))

/-- The validator loop of `Verify` (xcache.go:247-261). -/
def verifyLoop (env : Env) : List (Str × Entry D) → Cache D → Int → Cache D × Int
  | [], c, i => (c, i)
  | (k, x) :: rest, c, i =>
    if !env.valid k x.ctime then verifyLoop env rest (cdel c k) (i + 1) else verifyLoop env rest c i

/-- `Verify` (xcache.go:242-264). -/
def verify (c : Cache D) (env : Env) : Cache D × Option Int :=
  match mClean c env 0 with
  | (c', none) => (c', none)
  | (c', some i) =>
    if c'.hasValidator then
      let r := verifyLoop env c'.items.pairs c' i
      (r.1, some r.2)
    else (c', some i)

/-- One call: those above, `Count` (xcache.go:187-192), `Clean` (233-237) and `Flush` (268-273), which makes a new map; or an assignment to an
exported field. -/
def cstep (c : Cache D) (env : Env) : Cache.Op D → Cache D × Cache.Out D
  | .set k d => let r := cset c env k d; (r.1, if r.2 then .unit else .panicked)
  | .setTTL k t => (csetTTL c k t, .unit)
  | .get k => let r := cget c env k; (r.1, .got r.2.1 r.2.2)
  | .del k => (cdel c k, .unit)
  | .count => (c, .num c.items.pairs.length)
  | .clean p => let r := mClean c env p; (r.1, match r.2 with | some n => .num n | none => .panicked)
  | .verify => let r := verify c env; (r.1, match r.2 with | some n => .num n | none => .panicked)
  | .flush => ({ c with items := some [] }, .unit)
  | .setMaxitems m => ({ c with maxitems := m }, .unit)
  | .setExpire e => ({ c with expire := e }, .unit)
  | .setValidator b => ({ c with hasValidator := b }, .unit)

/-- A history of calls. -/
def crun (c : Cache D) : List (Env × Cache.Op D) → Cache D × List (Cache.Out D)
  | [] => (c, [])
  | (env, op) :: h =>
    let r := cstep c env op
    let r' := crun r.1 h
    (r'.1, r.2 :: r'.2)

/-! ## Methods under a mutex -/

open Lock in
/-- A call by the only goroutine that uses the object; the second component says whether the mutex is held. A call that panics leaves it held
unless the unlock is deferred. -/
def call {σ ρ Ω : Type} (m : Method σ ρ Ω) (s : σ × Bool) : (σ × Bool) × Outcome Ω :=
  if s.2 then (s, .blocks)
  else match m.alone s.1 with
    | (s', .ok o) => ((s', false), .returns o)
    | (s', .panic) => ((s', !m.deferred), .panics)
    | (s', .diverge) => ((s', true), .blocks)

/-- A history of calls. -/
def calls {σ ρ Ω Op : Type} (meth : Op → Lock.Method σ ρ Ω) (s : σ × Bool) : List Op → (σ × Bool) × List (Outcome Ω)
  | [] => (s, [])
  | op :: h =>
    let r := call (meth op) s
    let r' := calls meth r.1 h
    (r'.1, r.2 :: r'.2)

end Xcore.Zero
