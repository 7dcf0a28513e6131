import Verif.Spec.Method
import Verif.Model.TSMethods

/-! # The methods of XDatasetTS, XDatasetCollectionTS and XLanguage, called alone: the sequential models of the same methods -/

namespace Xcore.Dataset

open Lock

/-- A change that leaves everything as it was when it panics. -/
def change (h : Heap) : Res Heap → Heap × Res TSOut
  | .ok h' => (h', .ok .unit)
  | .panic => (h, .panic)
  | .diverge => (h, .diverge)

/-- The methods of `XDatasetTS`, called alone. -/
def tsSeq (x : Ext) (n : Nat) (a : Addr) : TSOp → Heap → Heap × Res TSOut
  | .set k v, h => change h (set h a k v)
  | .del k, h => change h (del h a k)
  | .get k, h => (h, (get h a k).map .val)
  | .getDataset k, h => (h, (getDataset h a k).map .addr)
  | .getCollection k, h => (h, (getCollection h a k).map .addr)
  | .getString k, h => (h, (getString x n h a k).map .str)
  | .getBool k, h => (h, (getBool h a k).map .bool)
  | .getInt k, h => (h, (getInt x h a k).map .int)
  | .getFloat k, h => (h, (getFloat h a k).map .float)
  | .getTime k, h => (h, (getTime h a k).map .time)
  | .getSlice sk k, h => (h, (getSlice sk h a k).map .addr)

/-- The methods of `XDatasetCollectionTS`, called alone. -/
def colSeq (a : Addr) : ColOp → Heap → Heap × Res ColOut
  | .unshift d, h => (unshift h a d, .ok .unit)
  | .shift, h => match shift h a with
    | .ok r => (r.1, .ok (.elem r.2))
    | _ => (h, .panic)
  | .push d, h => (push h a d, .ok .unit)
  | .pop, h => match pop h a with
    | .ok r => (r.1, .ok (.elem r.2))
    | _ => (h, .panic)
  | .count, h => (h, .ok (.num (count h a)))
  | .get i, h => (h, .ok (.found (colGetAt h a i)))

end Xcore.Dataset

namespace Xcore.Language

open Lock

/-- The methods of `XLanguage`, called alone. -/
def tsSeq : TSOp → Lang → Lang × Res TSOut
  | .set e v, l => (set l e v, .ok .unit)
  | .get e, l => (l, .ok (.str (get l e)))
  | .setStatus e v, l => (setStatus l e v, .ok .unit)
  | .getStatus e, l => (l, .ok (.str (getStatus l e)))
  | .del e, l => (del l e, .ok .unit)
  | .getEntries, l => (l, .ok (.map (getEntries l)))
  | .getXML, l => (l, .ok (.str (getXML l)))
  | .toString, l => (l, .ok (.str (toString l)))
  | .assign e v, l => (set l e v, .ok .unit)
  | .entries es, l => (es.foldl (fun l e => setStatus (set l e.id e.entry) e.id e.status) l, .ok .unit)

end Xcore.Language
