import Verif.Model.Config

/-!
# The documented settings

The table is the documentation of `ConfigOptions` in `/repo/src/gribjump/Config.h:60-146`: for each setting the environment
variable, the resource, the entry of the configuration file and the default.  An environment variable comes first, then a
resource, then the file, then the default.
-/

namespace GJ.Spec

open GJ

inductive CfgKind where
  | int | size | bool | text
  deriving DecidableEq

structure Documented where
  kind : CfgKind
  env : Option String
  resource : Option String
  file : Option String
  default : CfgVal

/-- `directory` is the setting of `cache.directory`, on which one default depends. -/
def documented (directory : String) : Opt → Documented
  | .type => ⟨.text, none, none, some "type", .text "local"⟩
  | .uri => ⟨.text, none, none, some "uri", .text ""⟩
  | .port => ⟨.int, some "GRIBJUMP_SERVER_PORT", none, some "server.port", .int 9777⟩
  | .threads => ⟨.size, some "GRIBJUMP_THREADS", some "gribjumpThreads", some "threads", .int 1⟩
  | .ignoreGrid => ⟨.bool, some "GRIBJUMP_IGNORE_GRID", none, some "ignoreGridHash", .bool false⟩
  | .ignoreYearMonth => ⟨.bool, some "GRIBJUMP_IGNORE_YEARMONTH", none, none, .bool true⟩
  | .requestParsing => ⟨.bool, some "GRIBJUMP_REQUEST_PARSING", none, some "requestParsing", .bool false⟩
  | .allowMissing => ⟨.bool, some "GRIBJUMP_ALLOW_MISSING", some "allowMissing", some "allowMissing", .bool false⟩
  | .inefficient => ⟨.bool, none, none, some "inefficientExtraction", .bool false⟩
  | .forwardExtraction => ⟨.bool, none, none, some "forwardExtraction", .bool false⟩
  | .forwardScan => ⟨.bool, none, none, some "forwardScan", .bool false⟩
  | .cacheEnabled => ⟨.bool, none, none, some "cache.enabled", .bool true⟩
  | .cacheDirectory => ⟨.text, none, none, some "cache.directory", .text ""⟩
  | .cacheShadow => ⟨.bool, none, none, some "cache.shadowfdb", .bool (decide (directory = ""))⟩
  | .cacheSize => ⟨.int, none, some "gribjumpCacheSize", some "cache.size", .int 1024⟩
  | .cacheLazy => ⟨.bool, none, some "gribjumpLazyInfo", some "cache.lazy", .bool true⟩
  | .scanCorrupted => ⟨.bool, some "GRIBJUMP_SCAN_CORRUPTED", none, none, .bool false⟩
  | .fdbEnable => ⟨.bool, some "FDB_ENABLE_GRIBJUMP", some "fdbEnableGribjump", none, .bool false⟩
  | .fdbDisable => ⟨.bool, some "FDB_DISABLE_GRIBJUMP", some "fdbDisableGribjump", none, .bool false⟩
  | .pluginSelect => ⟨.text, none, none, some "plugin.select", .text ""⟩

/-- A text given outside the file. -/
def translated (now : Now) : CfgKind → String → Res CfgVal
  | .int, t => (now.toInt t).map .int
  | .size, t => (now.toSize t).map fun n => .int n
  | .bool, t => (now.toBool t).map .bool
  | .text, t => .ok (.text t)

/-- An entry of the file. -/
def entry (y : Yaml) (k : String) : CfgKind → Res (Option CfgVal)
  | .int => (y.int k).map (Option.map .int)
  | .size => (y.int k).map (Option.map .int)
  | .bool => (y.bool k).map (Option.map .bool)
  | .text => (y.text k).map (Option.map .text)

/-- The value of a setting according to its documentation. -/
def setting (now : Now) (y : Yaml) (d : Documented) : Res CfgVal :=
  match d.env.bind now.env with
  | some t => translated now d.kind t
  | none => match d.resource.bind now.resource with
    | some t => translated now d.kind t
    | none => match d.file with
      | none => .ok d.default
      | some k => (entry y k d.kind).map fun x => x.getD d.default

/-- Every entry of the file has the type it is read with. -/
def WellTyped (y : Yaml) : Prop :=
  (∀ k, ∃ x, y.int k = .ok x) ∧ (∀ k, ∃ x, y.bool k = .ok x) ∧ ∀ k, ∃ x, y.text k = .ok x

end GJ.Spec
