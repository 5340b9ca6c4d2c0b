import Verif.Admin.Package
import Verif.Sc.Name
/-!
# The controller's public API

`fluvio-sc/src/services/public_api/**`: what each administrative request is checked for, what it asks the
metadata storage to do and what it answers.

A handler first looks at the controller's stores, then sends at most one write to the dispatcher
(`StoreContext::create_spec`, `StoreContext::delete`, fluvio-stream-dispatcher/src/store/mod.rs:139-294) and
waits until the store shows a change.  The model therefore returns the writes a request sends
(`List Effect`, at most one) together with the response.  Whether the wait ended well is an input
(`Reply.stored`); how the storage carries out the writes is the subject of `Verif/Meta/Local*.lean`.
-/

namespace Verif.Admin

/-- `ReplicaSpec` — fluvio-controlplane-metadata/src/topic/spec.rs; for computed replicas the number of
partitions and the replication factor, for home mirrors the remote cluster of every partition.  The maps
of assigned replicas and of remote mirrors take no part here and are left out (a number stands for them). -/
inductive Replicas where
  | computed (partitions factor : Nat)
  | assigned (map : Nat)
  | home (remotes : List Text)
  | remote (config : Nat)
deriving DecidableEq

/-- `TopicSpec`: the replicas, whether it is a system topic, the SmartModule of its deduplication; the
rest of the configuration is one number. -/
structure TopicSpec where
  replicas : Replicas
  system : Bool
  dedup : Option Text
  rest : Nat
deriving DecidableEq

/-- `SpuSpec`: id, custom or managed, the rest (endpoints, rack) as one number -/
structure SpuSpec where
  id : Int
  custom : Bool
  rest : Nat
deriving DecidableEq

/-- `SmartModuleSpec`: the package if there is one, the code -/
structure SmartModuleSpec (V : Type) where
  pkg : Option (Package V)
  wasm : Nat
deriving DecidableEq

/-- `MirrorType`: a remote cluster with its id, or the home cluster -/
inductive MirrorSpec where
  | remote (id : Text)
  | home (config : Nat)
deriving DecidableEq

/-- the stores of the controller (`Context`, fluvio-sc/src/core/context.rs), by name of the object -/
structure Cluster (V : Type) where
  topics : List (Text × TopicSpec) := []
  spus : List (Text × SpuSpec) := []
  spgs : List (Text × Nat) := []
  smartModules : List (Text × SmartModuleSpec V) := []
  tableFormats : List (Text × Nat) := []
  mirrors : List (Text × MirrorSpec) := []
  /-- partitions with their flag `system` -/
  partitions : List (Text × Bool) := []
  /-- `ctx.config().read_only_metadata` -/
  readOnly : Bool := false

/-- `CustomSpuKey` — fluvio-controlplane-metadata/src/spu/mod.rs:102-105 -/
inductive SpuKey where
  | name (n : Text)
  | id (i : Int)
deriving DecidableEq

/-- `UpdateTopicAction` -/
inductive TopicUpdate where
  | addPartitions (count : Nat)
  | addMirror (remoteCluster : Text)
deriving DecidableEq

/-- the requests of the public API — public_server.rs:79-124 (all but the query for API versions) -/
inductive Request (V : Type) where
  | createTopic (name : Text) (spec : TopicSpec) (dryRun : Bool)
  | createSpg (name : Text) (spec : Nat) (dryRun : Bool)
  | createCustomSpu (name : Text) (id : Int) (rest : Nat) (dryRun : Bool)
  | createSmartModule (name : Text) (spec : SmartModuleSpec V) (dryRun : Bool)
  | createTableFormat (name : Text) (spec : Nat) (dryRun : Bool)
  | createMirror (name : Text) (spec : MirrorSpec) (dryRun : Bool)
  | updateTopic (name : Text) (action : TopicUpdate)
  | deleteTopic (name : Text) (force : Bool)
  | deleteCustomSpu (key : SpuKey)
  | deleteSpg (name : Text)
  | deleteSmartModule (name : Text)
  | deleteTableFormat (name : Text)
  | deleteMirror (name : Text)
  | list (ty : ObjectType) (filters : List Text) (system : Bool)
  | watch (ty : ObjectType)
  | mirrorConnect (remoteId : Text)

/-- the writes a handler sends to the metadata storage (`WSAction`) -/
inductive Effect (V : Type) where
  | putTopic (name : Text) (spec : TopicSpec)
  | putSpu (name : Text) (spec : SpuSpec)
  | putSpg (name : Text) (spec : Nat)
  | putSmartModule (name : Text) (spec : SmartModuleSpec V)
  | putTableFormat (name : Text) (spec : Nat)
  | putMirror (name : Text) (spec : MirrorSpec)
  | delTopic (name : Text)
  | delSpu (name : Text)
  | delSpg (name : Text)
  | delSmartModule (name : Text)
  | delTableFormat (name : Text)
  | delMirror (name : Text)
  /-- the pairing status of a mirror; `true` for `Successful`, `false` for `Unauthorized` -/
  | pairing (name : Text) (success : Bool)
deriving DecidableEq

/-- `ErrorCode` as far as the handlers use it -/
inductive Code where
  | ok | permissionDenied | invalidName | alreadyExists | invalidConfig | badSmartModuleName
  | smartModuleNotLoaded | topicError | notProvisioned | deleteFromRemote | systemDeletion | systemUpdate
  | notFound | managedSpu | invalidPackage | storeError | readOnlyError | mirrorNotFound
  | mirrorInvalidType | mirrorAlreadyExists | invalidReplicaType
deriving DecidableEq, Repr

inductive Response where
  /-- a `Status` with the name it carries -/
  | status (name : Text) (code : Code)
  /-- the handler returns an error; the connection is closed -/
  | failed
  /-- a `ListResponse`: the keys of the objects in it -/
  | listed (ty : ObjectType) (names : List Text)
  /-- a stream of all objects of a type and of their changes is opened -/
  | watching (ty : ObjectType)
  /-- the topics sent to a remote cluster -/
  | mirrored (names : List Text)
  /-- no answer -/
  | silent
deriving DecidableEq, Repr

/-- how the wait after the write ended -/
structure Reply where
  /-- `create_spec`/`delete` returned `Ok` -/
  stored : Bool
  /-- all partitions of the new topic were seen online in time (topic/create.rs:225-281) -/
  provisioned : Bool

/-- what the handlers use from outside: versions, and the checks of a topic's configuration and replicas
(`validate_config` and the `match` at topic/create.rs:140-190; see `Verif/Sc/Topic.lean` for those) -/
structure Env (V : Type) where
  semver : SemVer V
  configOk : TopicSpec → Bool
  replicasOk : Cluster V → TopicSpec → Bool

variable {V : Type} [DecidableEq V]

/-- the check at the head of most handlers, e.g. topic/create.rs:46-62: go on only if the answer is
`Ok(true)` -/
def guarded (answer : Option Bool) (name : Text) (k : List (Effect V) × Response) :
    List (Effect V) × Response :=
  match answer with
  | none => ([], .failed)
  | some false => ([], .status name .permissionDenied)
  | some true => k

/-- the weaker check of spu/register_custom_spus_req.rs:43-55: an error lets the request through -/
def guardedOpen (answer : Option Bool) (name : Text) (k : List (Effect V) × Response) :
    List (Effect V) × Response :=
  match answer with
  | some false => ([], .status name .permissionDenied)
  | _ => k

/-- a write followed by the wait for it -/
def store (reply : Reply) (name : Text) (e : Effect V) : List (Effect V) × Response :=
  ([e], .status name (if reply.stored then .ok else .storeError))

/-- the check for the SmartModule of a topic's deduplication — topic/create.rs:115-138; the name in the
status is the SmartModule's -/
def checkDedup (env : Env V) (c : Cluster V) (spec : TopicSpec) : Option Response :=
  match spec.dedup with
  | none => none
  | some sm =>
    match fromQualifiedName env.semver sm with
    | none => some (.status sm .badSmartModuleName)
    | some k =>
      if (get c.smartModules (k.storeId env.semver)).isSome then none
      else some (.status sm .smartModuleNotLoaded)

/-- `validate_topic_request` — topic/create.rs:78-191; `none` when everything is well -/
def validateTopic (env : Env V) (c : Cluster V) (name : Text) (spec : TopicSpec) : Option Response :=
  if Sc.validateResourceName name ≠ .ok then some (.status name .invalidName)
  else if (get c.topics name).isSome then some (.status name .alreadyExists)
  else if env.configOk spec = false then some (.status name .invalidConfig)
  else
    match checkDedup env c spec with
    | some r => some r
    | none => if env.replicasOk c spec then none else some (.status name .topicError)

/-- `handle_create_topics_request` and `process_topic_request` — topic/create.rs:36-76, 193-281 -/
def createTopic (env : Env V) (auth : AuthContext) (c : Cluster V) (reply : Reply) (name : Text)
    (spec : TopicSpec) (dryRun : Bool) : List (Effect V) × Response :=
  guarded (auth.typeAction .topic .create) name <|
    match validateTopic env c name spec with
    | some r => ([], r)
    | none =>
      if dryRun then ([], .status name .ok)
      else
        ([.putTopic name spec],
          .status name
            (if reply.stored = false then .notProvisioned
             else
               match spec.replicas with
               | .home _ | .remote _ => .ok
               | _ => if reply.provisioned then .ok else .notProvisioned))

/-- `handle_create_spu_group_request` — spg/create.rs:27-85 -/
def createSpg (auth : AuthContext) (reply : Reply) (name : Text) (spec : Nat) :
    List (Effect V) × Response :=
  guarded (auth.typeAction .spuGroup .create) name (store reply name (.putSpg name spec))

/-- `LocalStore::get_by_id` — fluvio-sc/src/stores/spu/store.rs:171-178 -/
def spuById (c : Cluster V) (id : Int) : Option (Text × SpuSpec) :=
  c.spus.find? (fun e => e.2.id = id)

/-- `RegisterCustomSpu` — spu/register_custom_spus_req.rs:29-128; a dry run answers with the default
`Status` (an empty name) -/
def createCustomSpu (auth : AuthContext) (c : Cluster V) (reply : Reply) (name : Text) (id : Int)
    (rest : Nat) (dryRun : Bool) : List (Effect V) × Response :=
  guardedOpen (auth.typeAction .customSpu .create) name <|
    if (get c.spus name).isSome || (spuById c id).isSome then ([], .status name .alreadyExists)
    else if dryRun then ([], .status [] .ok)
    else store reply name (.putSpu name ⟨id, true, rest⟩)

/-- `handle_create_smartmodule_request`, `process_smartmodule_request` — smartmodule/create.rs:22-89 -/
def createSmartModule (env : Env V) (auth : AuthContext) (reply : Reply) (name : Text)
    (spec : SmartModuleSpec V) : List (Effect V) × Response :=
  guarded (auth.typeAction .smartModule .create) name <|
    match spec.pkg with
    | some p =>
      if p.isValid then
        store reply (p.storeId env.semver) (.putSmartModule (p.storeId env.semver) spec)
      else ([], .status name .invalidPackage)
    | none => store reply name (.putSmartModule name spec)

/-- `handle_create_tableformat_request` — tableformat/create.rs:22-88 -/
def createTableFormat (auth : AuthContext) (c : Cluster V) (reply : Reply) (name : Text) (spec : Nat) :
    List (Effect V) × Response :=
  if (get c.tableFormats name).isSome then ([], .status name .alreadyExists)
  else
    guarded (auth.typeAction .tableFormat .create) name
      (store reply name (.putTableFormat name spec))

/-- `handle_register_mirror` — mirror/register.rs:14-51; an error of the storage is returned as an error -/
def createMirror (c : Cluster V) (reply : Reply) (name : Text) (spec : MirrorSpec) :
    List (Effect V) × Response :=
  if c.readOnly then ([], .status name .readOnlyError)
  else
    match get c.mirrors name with
    | some (.remote _) => ([], .status name .mirrorAlreadyExists)
    | _ => ([.putMirror name spec], if reply.stored then .status name .ok else .failed)

/-- `handle_add_partition` — topic/update/add_partition.rs:21-76.  `partitions` is a `u32`; the addition
wraps around in a release build. -/
def addPartitions (c : Cluster V) (reply : Reply) (name : Text) (count : Nat) :
    List (Effect V) × Response :=
  match get c.topics name with
  | none => ([], .status name .notFound)
  | some spec =>
    if spec.system then ([], .status name .systemUpdate)
    else
      match spec.replicas with
      | .computed n f =>
        ([.putTopic name { spec with replicas := .computed ((n + count) % 2 ^ 32) f }],
          if reply.stored then .status name .ok else .failed)
      | _ => ([], .status name .invalidReplicaType)

/-- `handle_add_mirror` — topic/update/add_mirror.rs:22-131 -/
def addMirror (c : Cluster V) (reply : Reply) (name : Text) (remote : Text) :
    List (Effect V) × Response :=
  match get c.topics name with
  | none => ([], .status name .notFound)
  | some spec =>
    match get c.mirrors remote with
    | none => ([], .status name .mirrorNotFound)
    | some (.home _) => ([], .status name .mirrorInvalidType)
    | some (.remote _) =>
      match spec.replicas with
      | .home remotes =>
        if remote ∈ remotes then ([], .status name .mirrorAlreadyExists)
        else if spec.system then ([], .status name .systemUpdate)
        else
          ([.putTopic name { spec with replicas := .home (remotes ++ [remote]) }],
            if reply.stored then .status name .ok else .failed)
      | .remote _ =>
        if spec.system then ([], .status name .systemUpdate)
        else ([], .status name .invalidReplicaType)
      | _ => ([], .status name .topicError)

/-- `handle_topic_update_request` — topic/update/mod.rs:20-55 -/
def updateTopic (auth : AuthContext) (c : Cluster V) (reply : Reply) (name : Text) (a : TopicUpdate) :
    List (Effect V) × Response :=
  guarded (auth.instanceAction .topic .update name) name <|
    match a with
    | .addPartitions count => addPartitions c reply name count
    | .addMirror remote => addMirror c reply name remote

/-- `handle_delete_topic` — topic/delete.rs:23-104 -/
def deleteTopic (auth : AuthContext) (c : Cluster V) (reply : Reply) (name : Text) (force : Bool) :
    List (Effect V) × Response :=
  guarded (auth.instanceAction .topic .delete name) name <|
    match get c.topics name with
    | none => ([], .status name .notFound)
    | some spec =>
      match spec.replicas with
      | .remote _ => ([], .status name .deleteFromRemote)
      | _ =>
        if !force && spec.system then ([], .status name .systemDeletion)
        else store reply name (.delTopic name)

/-- `Display for CustomSpuKey`, fluvio-controlplane-metadata/src/spu/mod.rs:107-114: the text handed to the authorization -/
def SpuKey.text : SpuKey → Text
  | .name n => n
  | .id i => (toString i).toList

/-- `un_register_custom_spu` — spu/unregister_custom_spus_req.rs:91-118 -/
def dropSpu (reply : Reply) (e : Text × SpuSpec) : List (Effect V) × Response :=
  if e.2.custom then store reply e.1 (.delSpu e.1) else ([], .status e.1 .managedSpu)

/-- `handle_un_register_custom_spu_request` — spu/unregister_custom_spus_req.rs:22-88; the name in the
status for an unknown id (`spu-<id>`) is simplified to the text of the id -/
def deleteCustomSpu (auth : AuthContext) (c : Cluster V) (reply : Reply) (key : SpuKey) :
    List (Effect V) × Response :=
  guarded (auth.instanceAction .customSpu .delete key.text) key.text <|
    match key with
    | .name n =>
      match get c.spus n with
      | some spec => dropSpu reply (n, spec)
      | none => ([], .status n .notFound)
    | .id i =>
      match spuById c i with
      | some e => dropSpu reply e
      | none => ([], .status key.text .notFound)

/-- `handle_delete_spu_group` — spg/delete.rs:14-61 -/
def deleteSpg (auth : AuthContext) (c : Cluster V) (reply : Reply) (name : Text) :
    List (Effect V) × Response :=
  guarded (auth.instanceAction .spuGroup .delete name) name <|
    if (get c.spgs name).isSome then store reply name (.delSpg name)
    else ([], .status name .notFound)

/-- `handle_delete_smartmodule` — smartmodule/delete.rs:15-73; a name that does not parse is an error -/
def deleteSmartModule (env : Env V) (auth : AuthContext) (c : Cluster V) (reply : Reply) (name : Text) :
    List (Effect V) × Response :=
  guarded (auth.instanceAction .smartModule .delete name) name <|
    match fromQualifiedName env.semver name with
    | none => ([], .failed)
    | some k =>
      if (get c.smartModules (k.storeId env.semver)).isSome then
        store reply name (.delSmartModule (k.storeId env.semver))
      else ([], .status name .notFound)

/-- `handle_delete_tableformat` — tableformat/delete.rs:15-74 -/
def deleteTableFormat (auth : AuthContext) (c : Cluster V) (reply : Reply) (name : Text) :
    List (Effect V) × Response :=
  guarded (auth.instanceAction .tableFormat .delete name) name <|
    if (get c.tableFormats name).isSome then store reply name (.delTableFormat name)
    else ([], .status name .notFound)

/-- `handle_unregister_mirror` — mirror/unregister.rs:9-41 -/
def deleteMirror (c : Cluster V) (reply : Reply) (name : Text) : List (Effect V) × Response :=
  if c.readOnly then ([], .status name .readOnlyError)
  else if (get c.mirrors name).isSome then store reply name (.delMirror name)
  else ([], .status name .mirrorNotFound)

/-- `KeyFilter for ListFilters` — fluvio-sc-schema/src/objects/list.rs:52-62, fluvio-stream-model
store/filter.rs:5-9: no filter at all, or one of them occurs in the key -/
def passes (filters : List Text) (key : Text) : Bool :=
  filters.isEmpty || filters.any (fun f => contains key f)

/-- the check of the handlers for lists: when refused, the list is empty -/
def guardedList (answer : Option Bool) (ty : ObjectType) (names : List Text) :
    List (Effect V) × Response :=
  match answer with
  | none => ([], .failed)
  | some false => ([], .listed ty [])
  | some true => ([], .listed ty names)

/-- the weaker check of spu/fetch.rs:69-79 -/
def guardedListOpen (answer : Option Bool) (ty : ObjectType) (names : List Text) :
    List (Effect V) × Response :=
  match answer with
  | some false => ([], .listed ty [])
  | _ => ([], .listed ty names)

/-- the SmartModules that match one of the keys — smartmodule/list.rs:50-80 -/
def smartModuleNames (c : Cluster V) (keys : List (PackageKey V)) : List Text :=
  (c.smartModules.filter (fun e =>
    keys.isEmpty || keys.any (fun k => k.isMatch e.1 e.2.pkg))).map (·.1)

/-- parse all filters; `none` if one is invalid — smartmodule/list.rs:43-47 -/
def parseKeys (S : SemVer V) : List Text → Option (List (PackageKey V))
  | [] => some []
  | t :: ts =>
    match fromQualifiedName S t with
    | none => none
    | some k => (parseKeys S ts).map (k :: ·)

/-- `handle_list_request` with the handlers per type — list.rs:26-96, topic/fetch.rs, spu/fetch.rs,
spg/fetch.rs, partition/mod.rs, smartmodule/list.rs, mirror/list.rs.  Requests for other types are
errors. -/
def list (env : Env V) (auth : AuthContext) (c : Cluster V) (ty : ObjectType) (filters : List Text)
    (system : Bool) : List (Effect V) × Response :=
  match ty with
  | .topic =>
    guardedList (auth.typeAction .topic .read) ty
      ((c.topics.filter (fun e => e.2.system = system && passes filters e.1)).map (·.1))
  | .spu =>
    guardedListOpen (auth.typeAction .spu .read) ty
      ((c.spus.filter (fun e => passes filters e.1)).map (·.1))
  | .customSpu =>
    guardedList (auth.typeAction .customSpu .read) ty
      ((c.spus.filter (fun e => e.2.custom && passes filters e.1)).map (·.1))
  | .spuGroup =>
    guardedList (auth.typeAction .spuGroup .read) ty
      ((c.spgs.filter (fun e => passes filters e.1)).map (·.1))
  | .partition =>
    guardedList (auth.typeAction .partition .read) ty
      ((c.partitions.filter (fun e => e.2 = system)).map (·.1))
  | .smartModule =>
    match auth.typeAction .smartModule .read, parseKeys env.semver filters with
    | some false, _ => ([], .listed ty [])
    | some true, some keys => ([], .listed ty (smartModuleNames c keys))
    | _, _ => ([], .failed)
  | .tableFormat =>
    guardedList (auth.typeAction .tableFormat .read) ty
      ((c.tableFormats.filter (fun e => passes filters e.1)).map (·.1))
  | .mirror => ([], .listed ty (c.mirrors.map (·.1)))
  | .managedConnector | .derivedStream => ([], .failed)

/-- `handle_watch_request` — watch.rs:30-93 -/
def watch (ty : ObjectType) : List (Effect V) × Response :=
  match ty with
  | .topic | .spu | .spuGroup | .partition | .smartModule | .tableFormat => ([], .watching ty)
  | _ => ([], .failed)

/-- the topics with a partition for the remote cluster — mirroring/connect.rs:182-221.  Simplified: a
topic whose partition has no SPU yet is sent as well. -/
def topicsFor (c : Cluster V) (remote : Text) : List Text :=
  (c.topics.filter (fun e =>
    match e.2.replicas with | .home remotes => decide (remote ∈ remotes) | _ => false)).map (·.1)

/-- `RemoteFetchingFromHomeController::dispatch_loop` up to its first round, `get_remote_mirror` —
mirroring/connect.rs:59-90, 146-165, 168-249 -/
def mirrorConnect (auth : AuthContext) (c : Cluster V) (remote : Text) :
    List (Effect V) × Response :=
  match get c.mirrors remote with
  | some (.remote id) =>
    if id = remote then
      match auth.instanceAction .mirror .update remote with
      | some false => ([.pairing remote false], .silent)
      | _ => ([.pairing remote true], .mirrored (topicsFor c remote))
    else ([], .silent)
  | _ => ([], .silent)

/-- the dispatch of the public service — public_server.rs:79-124, create.rs:19-50, delete.rs:27-66,
update.rs:21-46 -/
def handle (env : Env V) (auth : AuthContext) (c : Cluster V) (reply : Reply) :
    Request V → List (Effect V) × Response
  | .createTopic n s d => createTopic env auth c reply n s d
  | .createSpg n s _ => createSpg auth reply n s
  | .createCustomSpu n i r d => createCustomSpu auth c reply n i r d
  | .createSmartModule n s _ => createSmartModule env auth reply n s
  | .createTableFormat n s _ => createTableFormat auth c reply n s
  | .createMirror n s _ => createMirror c reply n s
  | .updateTopic n a => updateTopic auth c reply n a
  | .deleteTopic n f => deleteTopic auth c reply n f
  | .deleteCustomSpu k => deleteCustomSpu auth c reply k
  | .deleteSpg n => deleteSpg auth c reply n
  | .deleteSmartModule n => deleteSmartModule env auth c reply n
  | .deleteTableFormat n => deleteTableFormat auth c reply n
  | .deleteMirror n => deleteMirror c reply n
  | .list ty f s => list env auth c ty f s
  | .watch ty => watch ty
  | .mirrorConnect r => mirrorConnect auth c r

/-! ### Carrying out the writes -/

/-- insert or replace -/
def putAt {α : Type} (m : List (Text × α)) (k : Text) (v : α) : List (Text × α) :=
  (k, v) :: m.filter (fun e => e.1 ≠ k)

/-- remove -/
def delAt {α : Type} (m : List (Text × α)) (k : Text) : List (Text × α) :=
  m.filter (fun e => e.1 ≠ k)

/-- the stores once a write has been carried out and has come back (`WSAction::UpdateSpec`,
`WSAction::Delete`; see `Verif/Meta/Local*.lean`).  The pairing status is not part of the stores here. -/
def Effect.apply (c : Cluster V) : Effect V → Cluster V
  | .putTopic n s => { c with topics := putAt c.topics n s }
  | .putSpu n s => { c with spus := putAt c.spus n s }
  | .putSpg n s => { c with spgs := putAt c.spgs n s }
  | .putSmartModule n s => { c with smartModules := putAt c.smartModules n s }
  | .putTableFormat n s => { c with tableFormats := putAt c.tableFormats n s }
  | .putMirror n s => { c with mirrors := putAt c.mirrors n s }
  | .delTopic n => { c with topics := delAt c.topics n }
  | .delSpu n => { c with spus := delAt c.spus n }
  | .delSpg n => { c with spgs := delAt c.spgs n }
  | .delSmartModule n => { c with smartModules := delAt c.smartModules n }
  | .delTableFormat n => { c with tableFormats := delAt c.tableFormats n }
  | .delMirror n => { c with mirrors := delAt c.mirrors n }
  | .pairing _ _ => c

/-- all writes of a request, in order -/
def applyAll (c : Cluster V) (es : List (Effect V)) : Cluster V := es.foldl Effect.apply c

theorem get_putAt {α : Type} (m : List (Text × α)) (k : Text) (v : α) (j : Text) :
    get (putAt m k v) j = if j = k then some v else get m j := by
  unfold get putAt
  rw [List.find?_cons]
  by_cases h : k = j
  · subst h; simp
  · simp only [h, decide_false]
    rw [if_neg (fun e => h e.symm), List.find?_filter]
    congr 1
    apply congrFun
    congr 1
    funext e
    by_cases he : e.1 = j
    · have : e.1 ≠ k := fun e' => h (e'.symm.trans he)
      simp [he, Ne.symm h]
    · simp [he]

theorem get_delAt {α : Type} (m : List (Text × α)) (k j : Text) :
    get (delAt m k) j = if j = k then none else get m j := by
  unfold get delAt
  rw [List.find?_filter]
  by_cases h : j = k
  · subst h
    rw [if_pos rfl]
    simp only [Option.map_eq_none_iff, List.find?_eq_none]
    intro x _ hx
    simp at hx
  · rw [if_neg h]
    congr 1
    apply congrFun
    congr 1
    funext e
    by_cases he : e.1 = j
    · simp [he, h]
    · simp [he]

end Verif.Admin
