import Verif.Config.Size
import Verif.Registry.Discovery

/-!
# The configuration file of a metadata server (C94)

Model of src/metaserver/config/config.go (`ReadConfig`, `initialize`, `Persist`) and of the places that change the
configuration of a running server and write it to its file: `HashSlot.SaveToEtcd`
(src/metaserver/internal/usecase/logic/hashslot_logic.go:27-38), `RaftCluster.UpdateConfiguration`
(logic/raft_cluster_logic.go:17-53) and `RemoveFollower` (controller/grpc/raft_cmd_server.go:137-162),
which write in goroutines of their own; and of the end of `Run` (src/metaserver/internal/app/app.go:19-78).
-/

namespace Verif.Config

open Verif

/-- The fields of `config.Config` that are in the file (config.go:23-34 and the structures it uses:
src/common/logs/config.go:3-16, src/common/registry/config.go:11-20, src/common/etcd/config.go:3-7,
config.go:74-97).  Fields marked `yaml:"-"` are not among them. -/
inductive Key
  | port | dataDir | maxStreams
  | logTarget | logSender | logPassword | logSmtpHost | logSmtpPort | logLevel | logCaller | logStoreDir
  | enable | bootstrap | groupId | electionTimeout | heartbeatTimeout | nodes
  | serverIp | serverId | group | name | interval | timeout | services
  | endpoint | username | password
  | slots | prepareTimeout
  | ttl | cleanInterval | maxSize
  deriving DecidableEq, Repr

/-- The value of a field. -/
inductive Val
  | str (s : Str)
  | strs (l : List Str)
  | bool (b : Bool)
  | int (n : Int)
  | dur (ns : Int)
  | size (d : Nat)
  deriving DecidableEq, Repr

/-- `IsZero` of a field after the file was read.  A list that is in the file is never the nil slice, even if
it is empty (library: yaml.v3 makes a slice, cleanenv compares with nil). -/
def Val.isZero : Val → Bool
  | .str s => s.isEmpty
  | .strs _ => false
  | .bool b => !b
  | .int n => n == 0
  | .dur n => n == 0
  | .size d => d == 0

/-- The `env-default` of a field, or the zero value of its type. -/
def dflt : Key → Val
  | .port => .str "8090".toList
  | .maxStreams => .int 100
  | .logSmtpPort => .str "587".toList
  | .logLevel => .str "info".toList
  | .logCaller | .enable | .bootstrap => .bool false
  | .groupId => .str "raft".toList
  | .electionTimeout => .dur 900000000
  | .heartbeatTimeout => .dur 800000000
  | .group => .str "goodfs".toList
  | .interval => .dur 5000000000
  | .timeout => .dur 3000000000
  | .slots => .strs ["0-16384".toList]
  | .prepareTimeout => .dur 10000000000
  | .ttl => .dur 1200000000000
  | .cleanInterval => .dur 600000000000
  | .maxSize => .size (128 * 1024 ^ 2)
  | .nodes | .services | .endpoint => .strs []
  | _ => .str []

/-- Fields marked `env-required`. -/
def required : Key → Bool
  | .name | .endpoint | .username | .password => true
  | _ => false

/-- A configuration file: the text of every field that is in it.  The text of a field other than a size is
represented by its value (library: yaml.v3 reads what it wrote). -/
abbrev Doc := Key → Option Val

/-- The environment variables that are set, as values. -/
abbrev Env := Key → Option Val

/-- The configuration of a running server, config.go:23-36. -/
structure Conf where
  /-- the fields of the file -/
  vals : Key → Val
  /-- `HashSlot.StoreID` -/
  storeId : Str
  /-- `DataPath`; simplification: `filepath.Join` is the pair of its arguments -/
  dataPath : Str × Str

/-- The text of a string field. -/
def Val.text : Val → Str
  | .str s => s
  | _ => []

/-- `UnmarshalYAML` of a field: sizes are parsed (yaml_env.go:5-12), all else is as written. -/
def parseField (k : Key) (v : Val) : Option Val :=
  if k = .maxSize then
    match v with
    | .str t => match DataSize.parse t with
      | .ok d => some (.size d)
      | .error _ => none
    | _ => none
  else some v

/-- `MarshalYAML` of a value: sizes by `DataSize.String` (yaml_env.go:23-25); `none` is its panic. -/
def writeField (ix : Nat → Int) : Val → Option Val
  | .size d => (render ix d).map .str
  | v => some v

/-- One field after `cleanenv.ReadConfig` (library): the environment variable if it is set, else what the file
says unless it is the zero value, else the default; `none` is an error.  (Errors of environment
variables are not modelled.) -/
def readField (env : Env) (doc : Doc) (k : Key) : Option Val :=
  match env k with
  | some v => some v
  | none =>
    match doc k with
    | none => if required k then none else some (dflt k)
    | some w =>
      match parseField k w with
      | none => none
      | some v => if v.isZero then (if required k then none else some (dflt k)) else some v

/-- `initialize`, config.go:38-55, on a machine with address `ip` whose directory for temporary files is `tmp`.
`SID` (registry/config.go:37-44) fills in the server id if there is none. -/
def initConf (ip tmp : Str) (vals : Key → Val) : Conf :=
  let dir := if (vals .dataDir).text = [] then tmp else (vals .dataDir).text
  let host := if (vals .serverIp).text = [] then ip else (vals .serverIp).text
  let sid := if (vals .serverId).text = []
    then Discovery.defaultSid (vals .name).text (host ++ ':' :: (vals .port).text) else (vals .serverId).text
  { vals := fun k => if k = .dataDir then .str dir else if k = .serverId then .str sid else vals k
    storeId := if vals .enable = .bool true then (vals .groupId).text else sid
    dataPath := (dir, sid) }

/-- All keys. -/
def allKeys : List Key :=
  [.port, .dataDir, .maxStreams, .logTarget, .logSender, .logPassword, .logSmtpHost, .logSmtpPort, .logLevel,
   .logCaller, .logStoreDir, .enable, .bootstrap, .groupId, .electionTimeout, .heartbeatTimeout, .nodes,
   .serverIp, .serverId, .group, .name, .interval, .timeout, .services, .endpoint, .username, .password,
   .slots, .prepareTimeout, .ttl, .cleanInterval, .maxSize]

/-- `ReadConfigFrom(path)`, config.go:107-119, of a file that exists; `none` is the panic of line 113, by which
the server does not start. -/
def readConfig (env : Env) (ip tmp : Str) (doc : Doc) : Option Conf :=
  if allKeys.all (fun k => (readField env doc k).isSome) then
    some (initConf ip tmp fun k => (readField env doc k).getD (dflt k))
  else none

/-- `enc.Encode(c)`, config.go:68: the new content of the file; `none` is a panic. -/
def encode (ix : Nat → Int) (c : Conf) : Option Doc :=
  if allKeys.all (fun k => (writeField ix (c.vals k)).isSome) then some fun k => writeField ix (c.vals k) else none

/-- A goroutine that writes the configuration. -/
inductive Writer
  /-- `SaveToEtcd`, hashslot_logic.go:30-36: it will first take over the slots -/
  | assign (slots : List Str)
  /-- before the lock of `Persist`, config.go:58; the flag says whether a panic is recovered
  (raft_cluster_logic.go:49, raft_cmd_server.go:157; not in hashslot_logic.go:30-36) -/
  | wait (recovers : Bool)
  /-- holds the lock, the file was opened and thereby truncated, config.go:60 -/
  | opened (recovers : Bool)
  /-- encoded into the buffer of the encoder, config.go:68, which is written when it is closed, config.go:66 -/
  | encoded (doc : Doc)

/-- The server and its file. -/
structure State where
  /-- the running configuration; `none`: not running -/
  mem : Option Conf
  /-- the file; `none`: truncated -/
  file : Option Doc
  pending : List Writer
  /-- `persistLock` -/
  locked : Bool := false

/-- What happens. -/
inductive Ev
  /-- `SaveToEtcd(id, info)` with these slots, hashslot_logic.go:27-38 -/
  | save (slots : List Str)
  /-- `UpdateConfiguration`, raft_cluster_logic.go:17-53, with the group and the nodes of the leader, on a server that
  leads its group or not; `slots` are those found for the group.  Simplification: one step. -/
  | regroup (leads : Bool) (groupId : Str) (nodes : List Str) (slots : List Str)
  /-- `RemoveFollower` with the remaining nodes, raft_cmd_server.go:153-160 -/
  | renode (nodes : List Str)
  /-- the server is told to stop: `Run` takes over the slots of its group if they can be read and finally persists,
  src/metaserver/internal/app/app.go:21, 68-78.  The process then ends (`stop`), whoever else is writing. -/
  | quit (slots : Option (List Str))
  /-- the `i`-th pending goroutine goes on -/
  | go (i : Nat)
  /-- the process ends, by itself or killed -/
  | stop
  /-- it is started -/
  | start (env : Env) (ip tmp : Str)

/-- A field is assigned. -/
def Conf.set (c : Conf) (k : Key) (v : Val) : Conf :=
  { c with vals := fun k' => if k' = k then v else c.vals k' }

/-- One step of a goroutine. -/
def advance (ix : Nat → Int) (s : State) (c : Conf) (w : Writer) (rest : List Writer) : State :=
  match w with
  | .assign l => { s with mem := some (c.set .slots (.strs l)), pending := .wait false :: rest }
  | .wait r => if s.locked then s else { s with file := none, locked := true, pending := .opened r :: rest }
  | .opened r =>
    match encode ix c with
    | some d => { s with pending := .encoded d :: rest }
    | none =>
      -- the deferred calls unlock; without a recovery the process dies
      if r then { s with locked := false, pending := rest }
      else { s with mem := none, locked := false, pending := [] }
  | .encoded d => { s with file := some d, locked := false, pending := rest }

/-- The transition. -/
def step (ix : Nat → Int) (s : State) (e : Ev) : State :=
  match e, s.mem with
  | .save l, some _ => { s with pending := .assign l :: s.pending }
  | .regroup leads g ns l, some c =>
    let c' := { (c.set .groupId (.str g)).set .nodes (.strs ns) with storeId := g }
    -- the service is registered only if the cluster is enabled (controller/grpc/grpc.go:38-42)
    if c.vals .enable ≠ .bool true then s
    else if leads then { s with mem := some c', pending := .wait true :: .assign l :: s.pending }
    else { s with mem := some (c'.set .slots (.strs l)), pending := .wait true :: s.pending }
  | .renode ns, some c =>
    if c.vals .enable ≠ .bool true then s
    else { s with mem := some (c.set .nodes (.strs ns)), pending := .wait true :: s.pending }
  | .quit sl, some c =>
    { s with mem := some (match sl with | some l => c.set .slots (.strs l) | none => c)
             pending := .wait false :: s.pending }
  | .go i, some c =>
    match s.pending[i]? with
    | none => s
    | some w => advance ix s c w (s.pending.eraseIdx i)
  | .stop, some _ => { s with mem := none, pending := [], locked := false }
  | .start env ip tmp, none =>
    match s.file with
    | none => s
    | some d =>
      match readConfig env ip tmp d with
      | none => s
      | some c => { s with mem := some c }
  | _, _ => s

/-- A trace. -/
def run (ix : Nat → Int) (s : State) : List Ev → State
  | [] => s
  | e :: es => run ix (step ix s e) es

/-- The server before its first start, with the file it was installed with. -/
def initial (doc : Doc) : State := { mem := none, file := some doc, pending := [] }

end Verif.Config
