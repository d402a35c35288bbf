import Verif.Model.InfoCache

/-!
# Configuration

Models `/repo/src/gribjump/Config.{h,cc}`, `LibGribJump.cc` (`loadConfig`, `config`), `LogRouter.cc`, and what the work
queue and the metadata cache make of their settings (`remote/WorkQueue.cc:41-48`, `info/InfoCache.cc:48-77`).

eckit is outside the model: the parsed file is a record whose typed look-ups may fail; `eckit::Resource` takes the
environment variable if it is set, then the entry of the resource files or command line, then the default (the order of the
names in its argument does not matter), and translates texts with functions that may fail.
-/

namespace GJ

inductive CfgVal where
  | int (n : Int)
  | bool (b : Bool)
  | text (s : String)
  deriving DecidableEq, Repr

/-- A log channel, LogRouter.cc:32-37; `default` means whatever the default channel is. -/
inductive LogChannel where
  | debug | info | error | default
  deriving DecidableEq, Repr

/-- A configuration file after `eckit::YAMLConfiguration`: typed look-ups of entries, the entries of `logging`, and those of
`servermap` with their two fields. -/
structure Yaml where
  int : String → Res (Option Int)
  bool : String → Res (Option Bool)
  text : String → Res (Option String)
  logging : List (String × String)
  servermap : List (Option String × Option String)

/-- `Config`, Config.h:22-44. -/
structure Conf where
  yaml : Yaml
  servers : AMap (String × Int) (String × Int)

/-- What surrounds a process at a moment: environment variables, resource entries, files, and eckit's translators. -/
structure Now where
  env : String → Option String
  resource : String → Option String
  /-- contents of a configuration file; an exception if it cannot be read or parsed -/
  file : String → Res Yaml
  /-- `~gribjump/etc/gribjump/config.yaml` exists -/
  installed : Bool
  endpoint : String → Res (String × Int)
  toInt : String → Res Int
  toSize : String → Res Nat
  toBool : String → Res Bool

/-- A file in which every look-up gives the default, as `Config()` behaves. -/
def Yaml.none : Yaml := ⟨fun _ => .ok .none, fun _ => .ok .none, fun _ => .ok .none, [], []⟩

/-! ## Log routing -/

/-- `standardChannel`, LogRouter.cc:31-46. -/
def standardChannel (name : String) : Res LogChannel :=
  if name = "debug" then .ok .debug
  else if name = "info" then .ok .info
  else if name = "error" then .ok .error
  else if name = "default" then .ok .default
  else throwExn .userError

/-- `std::transform(…, ::tolower)` in the C locale, LogRouter.cc:54. -/
def lowerText (s : String) : String := String.ofList (s.toList.map Char.toLower)

/-- `configure`, LogRouter.cc:48-58.  What was set before a failure stays. -/
def routeLogs (r : AMap String LogChannel) : List (String × String) → AMap String LogChannel × Res Unit
  | [] => (r, .ok ())
  | (alias, channel) :: rest => match standardChannel (lowerText channel) with
    | .error e => (r, .error e)
    | .ok c => routeLogs (r.set alias c) rest

/-- `get`, LogRouter.cc:69-75, with `LogRouter()`, LogRouter.cc:27-29. -/
def logChannel (r : AMap String LogChannel) (alias : String) : LogChannel :=
  match r.find alias with
  | some .default => .debug
  | some c => c
  | none => .debug

/-! ## The file -/

/-- The loop of `loadServerMap`, Config.cc:59-61.  The right side of the assignment is evaluated first. -/
def loadServers (now : Now) : AMap (String × Int) (String × Int) → List (Option String × Option String) →
    Res (AMap (String × Int) (String × Int))
  | m, [] => .ok m
  | m, (fdb, gribjump) :: rest => do
    let g ← match gribjump with
      | none => throwExn .badValue
      | some t => now.endpoint t
    let f ← match fdb with
      | none => throwExn .badValue
      | some t => now.endpoint t
    loadServers now (m.set f g) rest

/-- The settings of a process. -/
inductive Opt where
  | type | uri | port | threads | ignoreGrid | ignoreYearMonth | requestParsing | allowMissing | inefficient
  | forwardExtraction | forwardScan | cacheEnabled | cacheDirectory | cacheShadow | cacheSize | cacheLazy | scanCorrupted
  | fdbEnable | fdbDisable | pluginSelect
  deriving DecidableEq, Repr

/-- The state of a process: the loaded configuration, log channels, and the function-local statics of `ConfigOptions`. -/
structure Proc where
  config : Option Conf
  channels : AMap String LogChannel
  memo : Opt → Option CfgVal

def Proc.new : Proc := ⟨none, [], fun _ => none⟩

/-- `Config(path)`, Config.cc:38-41. -/
def loadFile (now : Now) (channels : AMap String LogChannel) (path : String) : AMap String LogChannel × Res Conf :=
  match now.file path with
  | .error e => (channels, .error e)
  | .ok y => match loadServers now [] y.servermap with
    | .error e => (channels, .error e)
    | .ok servers => match routeLogs channels y.logging with
      | (channels', .error e) => (channels', .error e)
      | (channels', .ok ()) => (channels', .ok ⟨y, servers⟩)

/-- `loadConfig`, LibGribJump.cc:33-48. -/
def loadConfig (now : Now) (channels : AMap String LogChannel) : AMap String LogChannel × Res Conf :=
  match now.env "GRIBJUMP_CONFIG_FILE" with
  | some path => loadFile now channels path
  | none =>
    if now.installed then loadFile now channels "~gribjump/etc/gribjump/config.yaml"
    else (channels, .ok ⟨.none, []⟩)

/-- `LibGribJump::config`, LibGribJump.cc:55-62. -/
def Proc.conf (p : Proc) (now : Now) : Proc × Res Conf :=
  match p.config with
  | some c => (p, .ok c)
  | none => match loadConfig now p.channels with
    | (channels, .ok c) => ({ p with config := some c, channels := channels }, .ok c)
    | (channels, .error e) => ({ p with channels := channels }, .error e)

/-! ## Options -/

/-- `eckit::Resource<int>("$env;name", default)`. -/
def resourceInt (now : Now) (env name : Option String) (d : Int) : Res CfgVal :=
  match env.bind now.env with
  | some t => (now.toInt t).map .int
  | none => match name.bind now.resource with
    | some t => (now.toInt t).map .int
    | none => .ok (.int d)

/-- `eckit::Resource<size_t>`: a default that is negative as `int` becomes a number modulo 2^64. -/
def resourceSize (now : Now) (env name : Option String) (d : Int) : Res CfgVal :=
  match env.bind now.env with
  | some t => (now.toSize t).map fun n => .int n
  | none => match name.bind now.resource with
    | some t => (now.toSize t).map fun n => .int n
    | none => .ok (.int (d % 2 ^ 64))

/-- `eckit::Resource<bool>`. -/
def resourceBool (now : Now) (env name : Option String) (d : Bool) : Res CfgVal :=
  match env.bind now.env with
  | some t => (now.toBool t).map .bool
  | none => match name.bind now.resource with
    | some t => (now.toBool t).map .bool
    | none => .ok (.bool d)

/-- `LibGribJump::instance().config().getInt(key, default)` and the like, followed by the rest of an accessor. -/
def Proc.yaml {α β : Type} (p : Proc) (now : Now) (get : Yaml → Res (Option α)) (d : α) (rest : α → Res β) : Proc × Res β :=
  match p.conf now with
  | (p', .error e) => (p', .error e)
  | (p', .ok c) => (p', get c.yaml >>= fun x => rest (x.getD d))

/-- `static T value = …; return value;`: an exception leaves the static uninitialised. -/
def Proc.once (p : Proc) (o : Opt) (body : Proc × Res CfgVal) : Proc × Res CfgVal :=
  match p.memo o with
  | some v => (p, .ok v)
  | none => match body with
    | (p', .ok v) => ({ p' with memo := fun o' => if o' = o then some v else p'.memo o' }, .ok v)
    | (p', .error e) => (p', .error e)

/-- The accessors of `ConfigOptions`, Config.cc:76-175. -/
def Proc.option (p : Proc) (now : Now) : Opt → Proc × Res CfgVal
  /- Config.cc:76-78 -/
  | .type => p.yaml now (·.text "type") "local" fun s => .ok (.text s)
  /- Config.cc:80-82 -/
  | .uri => p.yaml now (·.text "uri") "" fun s => .ok (.text s)
  /- Config.cc:84-88 -/
  | .port => p.once .port (p.yaml now (·.int "server.port") 9777 (resourceInt now (some "GRIBJUMP_SERVER_PORT") none))
  /- Config.cc:90-94 -/
  | .threads => p.once .threads
      (p.yaml now (·.int "threads") 1 (resourceSize now (some "GRIBJUMP_THREADS") (some "gribjumpThreads")))
  /- Config.cc:96-100 -/
  | .ignoreGrid => p.once .ignoreGrid
      (p.yaml now (·.bool "ignoreGridHash") false (resourceBool now (some "GRIBJUMP_IGNORE_GRID") none))
  /- Config.cc:102-105 -/
  | .ignoreYearMonth => p.once .ignoreYearMonth (p, resourceBool now (some "GRIBJUMP_IGNORE_YEARMONTH") none true)
  /- Config.cc:107-111 -/
  | .requestParsing => p.once .requestParsing
      (p.yaml now (·.bool "requestParsing") false (resourceBool now (some "GRIBJUMP_REQUEST_PARSING") none))
  /- Config.cc:113-117 -/
  | .allowMissing => p.once .allowMissing
      (p.yaml now (·.bool "allowMissing") false (resourceBool now (some "GRIBJUMP_ALLOW_MISSING") (some "allowMissing")))
  /- Config.cc:119-121 -/
  | .inefficient => p.yaml now (·.bool "inefficientExtraction") false fun b => .ok (.bool b)
  /- Config.cc:123-125 -/
  | .forwardExtraction => p.yaml now (·.bool "forwardExtraction") false fun b => .ok (.bool b)
  /- Config.cc:127-129 -/
  | .forwardScan => p.yaml now (·.bool "forwardScan") false fun b => .ok (.bool b)
  /- Config.cc:131-133 -/
  | .cacheEnabled => p.yaml now (·.bool "cache.enabled") true fun b => .ok (.bool b)
  /- Config.cc:135-137 -/
  | .cacheDirectory => p.yaml now (·.text "cache.directory") "" fun s => .ok (.text s)
  /- Config.cc:139-142; the configuration is the same at both look-ups -/
  | .cacheShadow => match p.conf now with
    | (p', .error e) => (p', .error e)
    | (p', .ok c) => (p', do
        let dir ← c.yaml.text "cache.directory"
        let b ← c.yaml.bool "cache.shadowfdb"
        .ok (.bool (b.getD (decide (dir.getD "" = "")))))
  /- Config.cc:144-148 -/
  | .cacheSize => p.once .cacheSize (p.yaml now (·.int "cache.size") 1024 (resourceInt now none (some "gribjumpCacheSize")))
  /- Config.cc:150-154 -/
  | .cacheLazy => p.once .cacheLazy
      (p.yaml now (·.bool "cache.lazy") true (resourceBool now none (some "gribjumpLazyInfo")))
  /- Config.cc:156-159 -/
  | .scanCorrupted => p.once .scanCorrupted (p, resourceBool now (some "GRIBJUMP_SCAN_CORRUPTED") none false)
  /- Config.cc:161-164 -/
  | .fdbEnable => p.once .fdbEnable (p, resourceBool now (some "FDB_ENABLE_GRIBJUMP") (some "fdbEnableGribjump") false)
  /- Config.cc:166-169 -/
  | .fdbDisable => p.once .fdbDisable (p, resourceBool now (some "FDB_DISABLE_GRIBJUMP") (some "fdbDisableGribjump") false)
  /- Config.cc:171-173 -/
  | .pluginSelect => p.yaml now (·.text "plugin.select") "" fun s => .ok (.text s)

/-- A process reads options one after the other, while its surroundings change. -/
def Proc.reads (p : Proc) : List (Now × Opt) → Proc × List (Res CfgVal)
  | [] => (p, [])
  | (now, o) :: rest =>
    let r := p.option now o
    let r' := r.1.reads rest
    (r'.1, r.2 :: r'.2)

/-! ## What is made of the settings -/

/-- A number as `int` after conversion from `size_t`. -/
def asInt32 (n : Nat) : Int := if n % 2 ^ 32 < 2 ^ 31 then (n % 2 ^ 32 : Nat) else (n % 2 ^ 32 : Nat) - 2 ^ 32

/-- `WorkQueue()`, WorkQueue.cc:41-48: the number of workers. -/
def workerCount (threads : Nat) : Nat := (asInt32 threads).toNat

/-- `InfoCache()`, InfoCache.cc:48-77: where index files are, or the exception; `exists_` says which directories exist.  A
disabled cache leaves `cacheDir_` at `PathName()`, the root. -/
def cacheMode (enabled : Bool) (directory : String) (shadow : Bool) (exists_ : String → Bool) : Res CacheMode :=
  if !enabled then .ok (.directory "")
  else if shadow then .ok .shadow
  else if directory = "" then throwExn .badValue
  else if exists_ directory then .ok (.directory directory)
  else throwExn .badValue

/-- `LRUCache(size_t)` from an `int`, LRUCache.h, InfoCache.cc:50. -/
def cacheCapacity (size : Int) : Nat := (size % 2 ^ 64).toNat

end GJ
