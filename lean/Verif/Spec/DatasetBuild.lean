import Verif.Spec.Dataset

/-!
# Specification of NewXDataset
-/

namespace Xcore.Dataset

/-- A Go value: the keys of a Go map are distinct. -/
inductive GoValue : Raw → Prop where
  | val {v : Val} : GoValue (.val v)
  | anys {l : List Raw} : (∀ r ∈ l, GoValue r) → GoValue (.anys l)
  | maps {l : List (List (Str × Raw))} : (∀ m ∈ l, GoValue (.map m)) → GoValue (.maps l)
  | map {m : List (Str × Raw)} : (m.map Prod.fst).Nodup → (∀ k r, (k, r) ∈ m → GoValue r) → GoValue (.map m)

/-- The items of a `[]interface{}` that are maps. -/
def onlyMaps : List Raw → List (List (Str × Raw))
  | [] => []
  | .map m :: l => m :: onlyMaps l
  | _ :: l => onlyMaps l

/-- The element as a value. -/
def asVal : Option Addr → Val
  | none => .nil
  | some a => .ptr a

/-- The value `v` in memory has the content of the Go value: maps are datasets with the same keys, slices of maps are collections of
datasets in the same order, a `[]interface{}` is the collection of its maps, everything else is stored as it is. -/
inductive Mirrors (h : Heap) : Raw → Val → Prop where
  | val {v : Val} : Mirrors h (.val v) v
  | map {m : List (Str × Raw)} {m' : AMap Val} {a : Addr} :
      h[a]? = some (.ds m') →
      (∀ k, (∃ r, (k, r) ∈ m) ↔ ∃ v, m'.get k = some v) →
      (∀ k r v, (k, r) ∈ m → m'.get k = some v → Mirrors h r v) → Mirrors h (.map m) (.ptr a)
  | maps {l : List (List (Str × Raw))} {es : List (Option Addr)} {c : Addr} :
      h[c]? = some (.col es) → es.length = l.length →
      (∀ (i : Nat) (m : List (Str × Raw)) (e : Option Addr), l[i]? = some m → es[i]? = some e → Mirrors h (.map m) (asVal e)) → Mirrors h (.maps l) (.ptr c)
  | anys {l : List Raw} {c : Addr} : Mirrors h (.maps (onlyMaps l)) (.ptr c) → Mirrors h (.anys l) (.ptr c)

/-- Following the path from the Go map leads to the Go value `r`: a segment is a key, or the index of a map in a slice. -/
inductive Finds : List (Str × Raw) → List Str → Raw → Prop where
  | key {m : List (Str × Raw)} {k : Str} {r : Raw} : (k, r) ∈ m → Finds m [k] r
  | map {m m' : List (Str × Raw)} {k k2 : Str} {rest : List Str} {r : Raw} :
      (k, .map m') ∈ m → Finds m' (k2 :: rest) r → Finds m (k :: k2 :: rest) r
  | item {m m' : List (Str × Raw)} {k k2 : Str} {l : List (List (Str × Raw))} {i : Nat} :
      ((k, .maps l) ∈ m ∨ ∃ l', (k, .anys l') ∈ m ∧ l = onlyMaps l') → atoi k2 = some (i : Int) → l[i]? = some m' →
      Finds m [k, k2] (.map m')
  | through {m m' : List (Str × Raw)} {k k2 k3 : Str} {rest : List Str} {l : List (List (Str × Raw))} {i : Nat} {r : Raw} :
      ((k, .maps l) ∈ m ∨ ∃ l', (k, .anys l') ∈ m ∧ l = onlyMaps l') → atoi k2 = some (i : Int) → l[i]? = some m' →
      Finds m' (k3 :: rest) r → Finds m (k :: k2 :: k3 :: rest) r

/-- The key `k` is used somewhere in the Go map or slice. -/
inductive HasKey (k : Str) : Raw → Prop where
  | here {m : List (Str × Raw)} {r : Raw} : (k, r) ∈ m → HasKey k (.map m)
  | inMap {m : List (Str × Raw)} {k' : Str} {r : Raw} : (k', r) ∈ m → HasKey k r → HasKey k (.map m)
  | inMaps {l : List (List (Str × Raw))} {m : List (Str × Raw)} : m ∈ l → HasKey k (.map m) → HasKey k (.maps l)
  | inAnys {l : List Raw} {r : Raw} : r ∈ l → HasKey k r → HasKey k (.anys l)

end Xcore.Dataset
