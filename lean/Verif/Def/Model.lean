import Verif.Mpdef.Props
import Verif.Message.Model
/-!
# Context definitions

Models `/repo/include/nbdl/def/directives.hpp` and `/repo/include/nbdl/def/builder/{enumerate_access_points,
access_point_meta, enumerate_producers, enumerate_consumers, producer_map, consumer_map, context_actors,
listener_lookup, store_map, entity_messages, message_api, context}.hpp` with
`/repo/include/nbdl/detail/make_create_path_type.hpp`: what the library computes from a context definition
when the program is compiled.  `none` is a program that does not compile.
-/
namespace Nbdl.Def
open Nbdl.Mpdef

/-- The directives, directives.hpp:14-33. -/
inductive Tag where
  | accessPoint | actions | consumer | context | create | delete | producer | read | update
  | name | privatePayload
  | accessPoints | consumers | listenPaths | producers
  | entity | pathKey | store | type
  | path
  /-- any other tag -/
  | other (n : Nat)
  deriving DecidableEq, Repr

/-- Types named in definitions. -/
inductive Ty where
  | nullStore
  | void
  | user (n : Nat)
  deriving DecidableEq, Repr

/-- A definition.  Simplification: the `types<…>` of a `Path` is a list of atoms. -/
abbrev Node := Tree Tag Ty

/-- The type of a `leaf`. -/
def leafTy : Node → Option Ty
  | .leaf _ a => some a
  | _ => none

/-- `hana::find(t, tag)` for a directive that holds a type. -/
def findTy (ts : List Node) (k : Tag) : Option Ty := (mapFind ts k).bind leafTy

/-- `access_point_meta`, access_point_meta.hpp:16-24.  Of the actions only the tags are used, and there is
one entity. -/
structure Meta where
  name : Ty
  actions : List Tag
  store : Ty
  entity : Ty
  path : List Ty
  listenPaths : List (List Ty)
  deriving DecidableEq, Repr

/-- The tags of the actions: `hana::find(node_children, tag::Actions)` or an empty list. -/
def actionsOf (ts : List Node) : List Tag :=
  match mapFind ts .actions with
  | some t => t.kids.filterMap Tree.key?
  | none => []

/-- `hana::find(node_children, tag::Store)` or `null_store` -/
def storeOf (ts : List Node) : Ty := (findTy ts .store).getD .nullStore

/-- `has_actions`, enumerate_access_points.hpp:30-43 -/
def hasActions (ts : List Node) : Bool := (actionsOf ts).length > 0 || storeOf ts ≠ .nullStore

/-- `transform_listen_paths_fn`, enumerate_access_points.hpp:45-56 -/
def listenPathsOf (ts : List Node) : List (List Ty) :=
  match mapFind ts .listenPaths with
  | some t => t.kids.map fun p => p.kids.filterMap fun a => match a with | .atom a => some a | _ => none
  | none => []

/-- `make_access_point_meta_helper`, enumerate_access_points.hpp:58-85 -/
def metaOf (path : List Ty) (ts : List Node) : List Meta :=
  if hasActions ts then
    [{ name := (findTy ts .name).getD .void
       actions := actionsOf ts
       store := storeOf ts
       entity := (findTy ts .entity).getD (storeOf ts)
       path := path
       listenPaths := listenPathsOf ts }]
  else []

/-- Whether a map has exactly one entry for a tag (`hana::contains`). -/
def hasOne (ts : List Node) (k : Tag) : Bool := (mapFind ts k).isSome

mutual
/-- `helper_fn`, enumerate_access_points.hpp:87-129 -/
def enum (path : List Ty) : Node → Option (List Meta)
  | .atom _ => none
  | .leaf k _ => if k = .accessPoint ∨ k = .accessPoints then none else some []
  | .list k ts =>
    if k = .accessPoint then none
    else if k = .accessPoints then enumAll path ts
    else some []
  | .map k ts =>
    if k = .accessPoint then
      match findTy ts .pathKey with
      | none => none
      | some pk => (enumAll (path ++ [pk]) ts).map (metaOf (path ++ [pk]) ts ++ ·)
    else if k = .accessPoints then enumAll path ts
    else if hasOne ts .accessPoints then enumOnly path .accessPoints ts
    else if hasOne ts .accessPoint then enumOnly path .accessPoint ts
    else some []
/-- all the children -/
def enumAll (path : List Ty) : List Node → Option (List Meta)
  | [] => some []
  | t :: ts =>
    match enum path t with
    | none => none
    | some l => (enumAll path ts).map (l ++ ·)
/-- the child with a given tag: `helper_fn{}(path_nodes, make_pair(tag, hana::at_key(def, tag)))` -/
def enumOnly (path : List Ty) (k : Tag) : List Node → Option (List Meta)
  | [] => some []
  | t :: ts => if t.key? = some k then enum path t else enumOnly path k ts
end

/-- `enumerate_access_points`, enumerate_access_points.hpp:137-147 -/
def enumerateAccessPoints (d : Node) : Option (List Meta) := enum [] d

/-- `producer_meta`, producer_meta.hpp:20-25 -/
structure ProducerMeta where
  producer : Ty
  name : Ty
  accessPoints : List Meta
  deriving DecidableEq, Repr

/-- One producer, enumerate_producers.hpp:21-34 -/
def producerMeta (d : Node) : Option ProducerMeta :=
  match findTy d.kids .type, enumerateAccessPoints d with
  | some ty, some aps => some { producer := ty, name := (findTy d.kids .name).getD ty, accessPoints := aps }
  | _, _ => none

/-- `enumerate_producers`, enumerate_producers.hpp:36-53: exactly one of `Producer` and `Producers`. -/
def enumerateProducers (d : Node) : Option (List ProducerMeta) :=
  match mapFind d.kids .producer, mapFind d.kids .producers with
  | some p, none => [p].mapM producerMeta
  | none, some ps => ps.kids.mapM producerMeta
  | _, _ => none

/-- `consumer_meta`, consumer_meta.hpp -/
structure ConsumerMeta where
  consumer : Ty
  name : Ty
  deriving DecidableEq, Repr

/-- One consumer, enumerate_consumers.hpp:24-36 -/
def consumerMeta (d : Node) : Option ConsumerMeta :=
  match findTy d.kids .type with
  | some ty => some { consumer := ty, name := (findTy d.kids .name).getD ty }
  | none => none

/-- `enumerate_consumers`, enumerate_consumers.hpp:38-52 -/
def enumerateConsumers (d : Node) : Option (List ConsumerMeta) :=
  match mapFind d.kids .consumers with
  | some cs => cs.kids.mapM consumerMeta
  | none =>
    match mapFind d.kids .consumer with
    | some c => [c].mapM consumerMeta
    | none => some []

/-! ## Looking up actors -/

/-- A key of the producer lookup: a path or a name. -/
inductive Key where
  | path (p : List Ty)
  | name (n : Ty)
  deriving DecidableEq, Repr

/-- `hana::unique`: removes consecutive duplicates. -/
def unique {α : Type} [DecidableEq α] : List α → List α
  | [] => []
  | [a] => [a]
  | a :: b :: l => if a = b then unique (b :: l) else a :: unique (b :: l)

/-- `build_producer_pair_fn`, producer_map.hpp:22-36: the keys of one producer. -/
def producerKeys (p : ProducerMeta) : List Key := (unique (p.accessPoints.map (·.path))).map .path ++ [.name p.name]

/-- `plookup`, context_actors.hpp:22-31 and 59-70: pairs of keys and indices. -/
def producerLookup (ps : List ProducerMeta) : List (Key × Nat) :=
  ps.zipIdx.flatMap fun (p, i) => (producerKeys p).map fun k => (k, i)

/-- `hana::at_key` on the lookup, map.hpp:26-33: not compiled unless there is exactly one entry. -/
def atKey {α β : Type} [DecidableEq α] (l : List (α × β)) (k : α) : Option β :=
  match l.filter (fun e => e.1 = k) with
  | [e] => some e.2
  | _ => none

/-- `make_actor_tags_fn`, context_actors.hpp:43-52: the types of the actors. -/
def actorTypes (ps : List ProducerMeta) (cs : List ConsumerMeta) : List Ty :=
  ps.map (·.producer) ++ cs.map (·.consumer)

/-- `make_actor_names`, def/builder/context.hpp:39-53 -/
def actorNames (ps : List ProducerMeta) (cs : List ConsumerMeta) : List Ty :=
  ps.map (·.name) ++ cs.map (·.name)

/-! ## Listeners, listener_lookup.hpp -/

/-- `listener_access_point_helper`, listener_lookup.hpp:24-31 -/
def listenerPairs (a : Meta) : List (List Ty × List (List Ty)) := a.listenPaths.map fun l => (l, [a.path])

/-- `listener_lookup`, listener_lookup.hpp:33-41 -/
def listenerLookup (ps : List ProducerMeta) : List (List Ty × List (List Ty)) :=
  groupBy ((ps.flatMap (·.accessPoints)).flatMap listenerPairs)

/-! ## Messages, entity_messages.hpp and message_api.hpp -/

/-- The payload of a message type. -/
inductive Payload where
  | none
  | entity (t : Ty)
  /-- `nbdl::not_found` -/
  | notFound
  deriving DecidableEq, Repr

/-- A message type: its kind, the path, whether the last key may be missing, and the payload. -/
structure MsgType where
  kind : Message.Kind
  path : List Ty
  createPath : Bool
  payload : Payload
  deriving DecidableEq, Repr

/-- `action_map`, entity_messages.hpp:34-43 -/
def actionOf : Tag → Option Message.Action
  | .create => some .create
  | .read => some .read
  | .update => some .update
  | .delete => some .delete
  | _ => none

/-- `make_upstream_messages`, entity_messages.hpp:47-98.  `isEmpty` tells which key types are empty classes
(make_create_path_type.hpp:20-52). -/
def upstreamOf (isEmpty : Ty → Bool) (a : Meta) : Message.Action → List MsgType
  | .create =>
    [⟨.upCreate, a.path, (match a.path.getLast? with | some k => !isEmpty k | none => false), .entity a.entity⟩]
  | .read => [⟨.upRead, a.path, false, .none⟩]
  | .update => [⟨.upUpdate, a.path, false, .entity a.entity⟩]
  | .delete => [⟨.upDelete, a.path, false, .none⟩]

/-- `make_downstream_messages`, entity_messages.hpp:102-156 -/
def downstreamOf (a : Meta) : Message.Action → List MsgType
  | .create => [⟨.downCreate, a.path, false, .entity a.entity⟩]
  | .read => [⟨.downRead, a.path, false, .entity a.entity⟩, ⟨.downRead, a.path, false, .notFound⟩]
  | .update => [⟨.downUpdate, a.path, false, .entity a.entity⟩]
  | .delete => [⟨.downDelete, a.path, false, .none⟩]

/-- `entity_messages_fn`, entity_messages.hpp:159-202: those for upstream, then those for downstream. -/
def entityMessages (isEmpty : Ty → Bool) (a : Meta) : Option (List MsgType) :=
  match a.actions.mapM actionOf with
  | none => none
  | some as => some (as.flatMap (upstreamOf isEmpty a) ++ as.flatMap (downstreamOf a))

/-- `make_message_api_fn`, def/builder/message_api.hpp:39-63: the messages of all access points, partitioned. -/
def messageApi (isEmpty : Ty → Bool) (ps : List ProducerMeta) : Option (List MsgType × List MsgType) :=
  match (ps.flatMap (·.accessPoints)).mapM (entityMessages isEmpty) with
  | none => none
  | some l => some (l.flatten.partition fun m => m.kind.channel = .upstream)

/-! ## The context -/

/-- `context_meta`, def/builder/context.hpp:57-73.  Simplification: a store is its path, type and entity. -/
structure ContextMeta where
  lookup : List (Key × Nat)
  actorTypes : List Ty
  actorNames : List Ty
  stores : List (List Ty × Ty × Ty)
  upstream : List MsgType
  downstream : List MsgType
  listeners : List (List Ty × List (List Ty))
  deriving DecidableEq, Repr

/-- `store_map`, store_map.hpp:20-49: `hana::make_map` does not compile when a key is there twice. -/
def storeMap (aps : List Meta) : Option (List (List Ty × Ty × Ty)) :=
  if (aps.map (·.path)).Nodup then some (aps.map fun a => (a.path, a.store, a.entity)) else none

/-- `context_fn`, def/builder/context.hpp:75-117 -/
def contextMeta (isEmpty : Ty → Bool) (d : Node) : Option ContextMeta :=
  if d.key? ≠ some .context then none
  else match enumerateProducers d, enumerateConsumers d with
    | some ps, some cs =>
      match storeMap (ps.flatMap (·.accessPoints)), messageApi isEmpty ps with
      | some st, some api =>
        some { lookup := producerLookup ps, actorTypes := actorTypes ps cs, actorNames := actorNames ps cs,
               stores := st, upstream := api.1, downstream := api.2, listeners := listenerLookup ps }
      | _, _ => none
    | _, _ => none

end Nbdl.Def
