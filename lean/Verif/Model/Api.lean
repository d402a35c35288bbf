import Verif.Model.Engine
import Verif.Model.Cluster

/-!
# The library's handle

Models `/repo/src/gribjump/GribJump.cc`, `GribJumpFactory.cc` and the constructors and unimplemented methods of
`LocalGribJump` and `RemoteGribJump`: which implementation a handle has, which arguments every call checks first, and what
each implementation does.
-/

namespace GJ

/-- The implementation behind a handle: this process, or a server at a host and port. -/
inductive Handle where
  | here
  | there (server : String × Int)
  deriving DecidableEq

/-- `GribJumpFactory::build`, GribJumpFactory.cc:44-62, with the names under which LocalGribJump.cc and RemoteGribJump.cc
register, `ConfigOptions::configType` and `remoteURI`, Config.cc:76-82, and the constructor `RemoteGribJump()`,
RemoteGribJump.cc:23-32.  `type` and `uri` are the entries of the configuration; `endpoint` is `eckit::net::Endpoint` from
a text. -/
def buildHandle (endpoint : String → Res (String × Int)) (type uri : Option String) : Res Handle :=
  if type.getD "local" = "local" then .ok .here
  else if type.getD "local" = "remote" then
    if uri.getD "" = "" then throwExn .userError
    else do
      let e ← endpoint (uri.getD "")
      .ok (.there e)
  else throwExn .seriousBug

/-- What a handle can reach: the implementation in this process (LocalGribJump.cc) and the engine of the server at a host
and port.  Connections are assumed to succeed. -/
structure Around where
  extract : List ExRequest → Res (List WireResult)
  extractPaths : List PathReq → Res (List WireResult)
  extractAt : String → List Nat → List (List Interval) → Res (List WireResult)
  axes : String → Int → Res (AMap String (List String))
  scan : List String → Bool → Res Nat
  scanPaths : List String → Res Nat
  server : String × Int → Engine

/-- `GribJump::extract(requests)`, GribJump.cc:60-67. -/
def Handle.extract (A : Around) (h : Handle) (ctx : String) (rs : List ExRequest) : Res (List WireResult) :=
  if rs = [] then throwExn .userError
  else match h with
    | .here => A.extract rs
    | .there s => remoteExtract (A.server s) ctx rs

/-- `GribJump::extract(path requests)`, GribJump.cc:69-76; `RemoteGribJump::extract`, RemoteGribJump.cc:116-118. -/
def Handle.extractPaths (A : Around) (h : Handle) (rs : List PathReq) : Res (List WireResult) :=
  if rs = [] then throwExn .userError
  else match h with
    | .here => A.extractPaths rs
    | .there _ => throwExn .notImplemented

/-- `GribJump::extract(path, offsets, ranges)`, GribJump.cc:92-107; RemoteGribJump.h:40-44. -/
def Handle.extractAt (A : Around) (h : Handle) (path : String) (offsets : List Nat) (ranges : List (List Interval)) :
    Res (List WireResult) :=
  if path = "" then throwExn .userError
  else if offsets = [] then throwExn .userError
  else if offsets.length ≠ ranges.length then throwExn .userError
  else match h with
    | .here => A.extractAt path offsets ranges
    | .there _ => throwExn .notImplemented

/-- `GribJump::axes`, GribJump.cc:110-120. -/
def Handle.axes (A : Around) (h : Handle) (ctx request : String) (level : Int) : Res (AMap String (List String)) :=
  if request = "" then throwExn .userError
  else match h with
    | .here => A.axes request level
    | .there s => remoteAxes (A.server s) ctx request level

/-- `GribJump::scan(requests, byfiles)`, GribJump.cc:44-53. -/
def Handle.scan (A : Around) (h : Handle) (ctx : String) (rs : List String) (byfiles : Bool) : Res Nat :=
  if rs = [] then throwExn .userError
  else match h with
    | .here => A.scan rs byfiles
    | .there s => remoteScan (A.server s) ctx rs byfiles

/-- `GribJump::scan(paths)`, GribJump.cc:33-42; RemoteGribJump.h:30. -/
def Handle.scanPaths (A : Around) (h : Handle) (paths : List String) : Res Nat :=
  if paths = [] then throwExn .userError
  else match h with
    | .here => A.scanPaths paths
    | .there _ => throwExn .notImplemented

end GJ
