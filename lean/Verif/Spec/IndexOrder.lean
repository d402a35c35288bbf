import Verif.Model.InfoCache

/-!
# Index files, as files
-/

namespace GJ.Spec

open GJ

/-- Strictly increasing offsets. -/
def Increasing (es : List (Nat × Info)) : Prop := es.Pairwise (fun a b => a.1 < b.1)

/-- The file of an index with these entries, in this order: the version, then the entries one after the other. -/
def indexOf (es : List (Nat × Info)) : List Tok := .u8 1 :: es.flatMap fun p => encEntry p.1 p.2

/-- Every index file consists of a version and whole entries: nothing was cut short. -/
def Complete (fs : FS) : Prop := ∀ p toks, fs.find p = some toks → ∃ es, toks = indexOf es

/-- Every index file has its entries in increasing order of offset, each once. -/
def Ordered (fs : FS) : Prop := ∀ p toks, fs.find p = some toks → ∃ es, toks = indexOf es ∧ Increasing es

end GJ.Spec
