import Verif.Model.Protocol

/-!
# What a message means to its receiver
-/

namespace GJ.Spec

open GJ

/-- The item a server works on when a peer forwards `i` to it: same message, same ranges, same grid
hash; the location is a local file; no result yet. -/
def received (i : Item) : Item :=
  { request := { request := "", ranges := i.request.ranges, gridHash := i.request.gridHash },
    uri := { i.uri with scheme := "file" },
    result := some ⟨[], []⟩ }

/-- The sender's items after the reply: item `j` of a file gets the result of item `j` of the same
file on the server. -/
def withResults (mine served : FileMap) : FileMap :=
  List.zipWith (fun f g => (f.1, List.zipWith (fun i j => { i with result := j.result }) f.2 g.2))
    mine served

/-- Both sides hold the same files with the same number of items. -/
def sameShape (mine served : FileMap) : Prop :=
  mine.map (fun f => (f.1, f.2.length)) = served.map (fun f => (f.1, f.2.length))

end GJ.Spec
