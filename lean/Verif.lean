import Verif.Props.C01
import Verif.Props.C03
import Verif.Props.C06
import Verif.Props.C07
import Verif.Props.C14
import Verif.Props.C15
import Verif.Props.C16
import Verif.Props.C18
import Verif.Props.C21
import Verif.Props.C22
import Verif.Props.C23
import Verif.Props.C25
import Verif.Props.C35
import Verif.Props.C40
import Verif.Props.C42
import Verif.Props.C27
import Verif.Props.C28
import Verif.Props.C29
import Verif.Props.C31
import Verif.Props.C32
import Verif.Props.C33
import Verif.Props.C34
import Verif.Props.C43
import Verif.Props.C44
import Verif.Props.C45
import Verif.Props.C46
import Verif.Props.C47
import Verif.Props.C48
import Verif.Props.C49
import Verif.Props.C50
import Verif.Props.C51
import Verif.Props.C52
import Verif.Props.C52Scan
import Verif.Props.C53
import Verif.Props.C55
import Verif.Props.C56
import Verif.Props.C57
import Verif.Props.C58
import Verif.Props.C59
import Verif.Props.C62
import Verif.Props.C63
import Verif.Props.C64
import Verif.Model.Api
import Verif.Model.Context
import Verif.Props.C65
import Verif.Props.C66
import Verif.Model.Config
import Verif.Model.LastError
import Verif.Spec.Config
import Verif.Props.C67
import Verif.Props.C68
import Verif.Props.C69
import Verif.Lemmas.CacheSafe
import Verif.Props.C70
import Verif.Model.Execution
import Verif.Lemmas.Execution
import Verif.Props.C71
import Verif.Model.Metrics
import Verif.Spec.Metrics
import Verif.Lemmas.Metrics
import Verif.Props.C72
import Verif.Model.IndexOrder
import Verif.Model.Whole
import Verif.Spec.IndexOrder
import Verif.Lemmas.IndexOrder
import Verif.Lemmas.Whole
import Verif.Props.C73
import Verif.Props.C74
import Verif.Model.Fleet
import Verif.Lemmas.Fleet
import Verif.Props.C75
import Verif.Model.Net
import Verif.Lemmas.Net
import Verif.Lemmas.NetServe
import Verif.Lemmas.NetFleet
import Verif.Props.C76
import Verif.Lemmas.NetPresent
import Verif.Lemmas.NetMachine
import Verif.Lemmas.NetDefined
import Verif.Props.C77
import Verif.Props.C78
import Verif.Model.Mixed
import Verif.Lemmas.Mixed
import Verif.Lemmas.MixedLive
import Verif.Lemmas.MixedRun
import Verif.Spec.Scans
import Verif.Lemmas.MixedScan
import Verif.Lemmas.MixedDefined
import Verif.Props.C79
import Verif.Model.Mesh
import Verif.Lemmas.Mesh
import Verif.Lemmas.MeshRun
import Verif.Spec.MeshScans
import Verif.Lemmas.MeshScan
import Verif.Props.C80
import Verif.Lemmas.MeshLive
import Verif.Props.C81
import Verif.Lemmas.MeshFleet
import Verif.Model.Shared
import Verif.Spec.SharedScans
import Verif.Lemmas.Shared
import Verif.Lemmas.SharedScan
import Verif.Props.C82
import Verif.Props.C83
import Verif.Model.PyCalls
import Verif.Model.PyContext
import Verif.Spec.Json
import Verif.Spec.Select
import Verif.Lemmas.Parts
import Verif.Lemmas.Unfold
import Verif.Props.C84
import Verif.Props.C85
import Verif.Props.C86
import Verif.Lemmas.Kept
import Verif.Props.C87
import Verif.Model.PyHeap
import Verif.Lemmas.PyHeap
import Verif.Lemmas.PyMoves
import Verif.Lemmas.PyKeep
import Verif.Lemmas.PyReads
import Verif.Lemmas.PyPairs
import Verif.Props.C88
import Verif.Props.C89
import Verif.Model.RustShare
import Verif.Lemmas.RustShare
import Verif.Lemmas.RustStep
import Verif.Props.C90
import Verif.Model.DumpText
import Verif.Spec.DumpText
import Verif.Props.C91
import Verif.Props.C92
import Verif.Model.OffsetText
import Verif.Props.C93
import Verif.Props.C94
import Verif.Model.Together
import Verif.Props.C95
