import Verif.Model.PyRequest

/-!
# Python client: the convenience calls

Models `extract_from_mask`, `extract_from_indices` and `extract_from_ranges` of
`/repo/python/pygribjump/src/pygribjump/pygribjump.py`.  All three make one request per dictionary and call `extract`; the
results are unpacked as in `dump_legacy`.
-/

namespace GJ

/-- A range made by numpy, as Python integers. -/
def pyPair (i : Interval) : Int × Int := (i.b, i.e)

/-- `extract_from_mask`, pygribjump.py:474-484, with `from_mask`, 172-189: one mask for all requests.  Simplified: the
ranges of all requests are computed before the first request is made; either error ends the call. -/
def pyExtractFromMask {V : Type} (zero : V) (parsing : Option (Str → Res Str))
    (impl : List ExRequest → Res (List (ExResult V))) (dics : List (List (Str × Str))) (mask : List Bool)
    (hash : Option Str) : Res (List (List (List (List V × List Nat)))) := do
  let items ← dics.mapM fun dic => do
    let rs ← pyFromMask mask
    (.ok (dic, rs.map pyPair, hash) : Res PyItem)
  pyExtractDump zero parsing impl items

/-- `extract_from_indices`, pygribjump.py:486-496, with `from_indices`, 191-197: a range of one point per index. -/
def pyExtractFromIndices {V : Type} (zero : V) (parsing : Option (Str → Res Str))
    (impl : List ExRequest → Res (List (ExResult V))) (dics : List (List (Str × Str))) (indices : List Int)
    (hash : Option Str) : Res (List (List (List (List V × List Nat)))) :=
  pyExtractDump zero parsing impl (dics.map fun dic => (dic, indices.map (fun p => (p, p + 1)), hash))

/-- `extract_from_ranges`, pygribjump.py:498-508. -/
def pyExtractFromRanges {V : Type} (zero : V) (parsing : Option (Str → Res Str))
    (impl : List ExRequest → Res (List (ExResult V))) (dics : List (List (Str × Str))) (rs : List (Int × Int))
    (hash : Option Str) : Res (List (List (List (List V × List Nat)))) :=
  pyExtractDump zero parsing impl (dics.map fun dic => (dic, rs, hash))

end GJ
