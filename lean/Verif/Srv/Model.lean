import Verif.OUri.Model
import Verif.OUri.PathInfo
import Verif.Http.Words
/-!
# Model of the OData server: `pyslet/odata2/server.py` 277-365, 414-534, 542-894, 1364-1425

What the server calls is given by a `Service`: the containers, the collections with their entities and the operations of
the data layer.  The data layer is a state of any type `D`; operations that read it are functions of the state, those
that may change it return the state they leave, also when they raise.  The server is what is modelled: which operation it
calls for which request, and the status of the answer.

Not modelled: what is written in the bodies (the resource that is written is part of the answer), headers other than the
status and Location, links to other entities in the body of an entity (resolved by `get_resource_from_uri`), failures
after `start_response` has been called.
-/
namespace Verif.Srv

open Verif.OData Verif.Text Verif.OUri

/-- The exceptions, as the `except` clauses of `handle_request` (875-894) and `__call__` (334-365) tell them apart: MissingURISegment,
BadURISegment, NavigationError, other ConstraintErrors, NotImplementedError, InvalidSystemQueryOption, InvalidPathOption,
InvalidMethod, ValueError, KeyError, all others (InvalidData among them, core.py:132, a ServerError). -/
inductive Exc where
  | missing | badSegment | navigation | constraint | notImplemented | sysOption | pathOption | method | value | key | other
deriving DecidableEq, Repr

/-- The method of the request, `environ["REQUEST_METHOD"].upper()`, server.py:550. -/
inductive Method where
  | get | head | post | put | merge | delete | unknown
deriving DecidableEq, Repr

/-- `str.upper`, ASCII. -/
def upper (s : Str) : Str := s.map fun c => if 97 ≤ c ∧ c ≤ 122 then c - 32 else c

/-- The method with this name. -/
def methodOf (s : Str) : Method :=
  if upper s = chars "GET" then .get else if upper s = chars "HEAD" then .head else if upper s = chars "POST" then .post
  else if upper s = chars "PUT" then .put else if upper s = chars "MERGE" then .merge else if upper s = chars "DELETE" then .delete
  else .unknown

/-- What a path leads to: the model itself (`edmx.Edmx`), a collection of entities, an entity, a simple or complex value, the
collection of values that a function returned, nothing. -/
inductive Res (E C V X : Type) where
  | model
  | coll (c : C)
  | entity (e : E)
  | value (v : V)
  | values (x : X)
  | null

/-- What a name stands for in the containers: an entity set, which is opened, a function import, anything else. -/
inductive Entry (C Fn : Type) where
  | set (c : C)
  | func (f : Fn)
  | other

/-- The value of a property of an entity: a value, a navigation property with many entities, one with at most one. -/
inductive Pty (E C V D : Type) where
  | value (v : V)
  | many (c : C)
  | one (get : D → Except Exc (Option E))

/-- A key predicate. -/
abbrev Keys := List (Str × Val)

/-- What the answer shows. -/
inductive Body (E C V X : Type) where
  | empty | error | service | metadata
  | count (n : Nat)
  | feed (c : C)
  | entity (e : E)
  | stream (e : E)
  | links (c : C)
  | link (e : E)
  | value (v : V)
  | raw (v : V)
  | values (x : X)

/-- The answer: status, what the body shows, the entity in the Location header. -/
structure Resp (E C V X : Type) where
  status : Nat
  body : Body E C V X
  location : Option E

/-- The body and headers of the request other than its method and URI. -/
structure Input where
  contentType : Option Str
  slug : Option Str
  accept : Option Str
  body : Str

/-- A URI as it has been read: C130-C135. -/
structure Uri' (F : Type) where
  path : PState
  query : QState F

variable {D E C V X Fn F : Type}

/-- A computation that may change the data and may raise; the data is as it was left when it raised. -/
def Act (D α : Type) := D → D × Except Exc α

namespace Act
/-- A value. -/
def pure (a : α) : Act D α := fun d => (d, .ok a)
/-- `raise` -/
def throw (e : Exc) : Act D α := fun d => (d, .error e)
/-- One after the other. -/
def bind (x : Act D α) (f : α → Act D β) : Act D β := fun d =>
  match x d with
  | (d', .ok a) => f a d'
  | (d', .error e) => (d', .error e)
/-- Reading the data. -/
def read (f : D → Except Exc α) : Act D α := fun d => (d, f d)
/-- A value or an exception. -/
def lift (r : Except Exc α) : Act D α := fun d => (d, r)
end Act

instance : Monad (Act D) where
  pure := Act.pure
  bind := Act.bind

/-- The data layer and the model of a service.  `F` is the type of the accept lists of $format. -/
structure Service (D E C V X Fn F : Type) where
  /-- `search_containers(name)`, metadata.py:217-240. -/
  find : Str → Option (Entry C Fn)
  /-- The parameters are read and the function is executed, server.py:429-436. -/
  exec : Fn → QState F → Act D (Res E C V X)
  /-- `collection[collection.entity_set.get_key(keys)]` -/
  entityAt : D → C → Keys → Except Exc E
  /-- `entity[name]`; `none`: not in the entity. -/
  property : E → Str → Option (Pty E C V D)
  /-- `complex[name]` for a complex value, `some none`: not in the complex value; `none`: a simple value. -/
  field : V → Option (Str → Option V)
  /-- `isCollection` of a navigation property. -/
  isMany : E → Str → Bool
  /-- The collection opened for a navigation property. -/
  openNav : E → Str → C
  /-- The entity type has a stream. -/
  hasStream : E → Bool
  /-- `is_medialink_collection()` -/
  mediaLink : C → Bool
  /-- The value is not NULL. -/
  nonNull : V → Bool
  /-- The property may be NULL. -/
  nullable : V → Bool
  /-- `set_filter`, `len`. -/
  count : D → C → QState F → Except Exc Nat
  /-- The system query options are applied: `set_expand`, `set_filter`, `set_orderby`, `set_page`, `set_inlinecount`, `expand`. -/
  apply : D → Res E C V X → QState F → Except Exc Unit
  /-- `content_negotiation` finds a type for the body. -/
  acceptable : D → QState F → Input → Body E C V X → Bool
  /-- The body, and the headers that describe it, can be produced. -/
  render : D → Body E C V X → Except Exc Unit
  /-- `set_etag(entity, …)` -/
  etag : E → Except Exc Unit
  /-- The URI of the body of a request that changes a link; `none` for a URI of another server. -/
  linkUri : Input → Except Exc (Option (Uri' F))
  /-- `read_entity(entity, environ)` -/
  readEntity : D → E → Input → Except Exc E
  /-- `resource.new_entity()` -/
  newEntity : C → Except Exc E
  /-- `read_value`, `read_dereferenced_value`: the new value. -/
  readValue : V → Bool → Input → Except Exc V
  /-- The value NULL. -/
  setNull : V → V
  /-- The headers are read: Content-Type, Last-Modified and the key for a slug, server.py:757-781. -/
  slugKey : C → Input → Except Exc Unit
  /-- The entity has a property for the title, which is set to the slug, server.py:783-789. -/
  titled : E → Input → Option E
  insertLink : E → Str → E → Act D Unit
  replaceLink : E → Str → E → Act D Unit
  deleteLink : E → Str → E → Act D Unit
  /-- `update_stream` -/
  updateStream : E → Input → Act D Unit
  /-- `coll[resource.key()]` -/
  reread : D → E → Except Exc E
  /-- `update_entity(entity, merge)` -/
  update : E → Bool → Act D Unit
  delete : E → Act D Unit
  /-- `new_stream(input, …)` -/
  newStream : C → Input → Act D E
  /-- `insert_entity(entity)`; the entity has its key afterwards. -/
  insert : C → E → Act D E
  /-- `parent_entity.commit()` with the changed value. -/
  commit : E → V → Act D Unit

/-- `validate_sys_query_options(num)` with the rows of core.py:1981-2058 the server uses. -/
def allowedOpts : Nat → List SysOpt
  | 1 => [.expand, .filter, .format, .orderby, .skip, .top, .skiptoken, .inlinecount, .select]
  | 2 => [.expand, .filter, .format, .select]
  | 3 => [.filter, .format]
  | 4 => [.format]
  | 10 => [.format]
  | 17 => [.format]
  | _ => []

/-- `validate_sys_query_options(num)`, core.py:2303-2309. -/
def checkOpts (q : QState F) (num : Nat) : Act D Unit :=
  if q.sys.all fun ov => (allowedOpts num).contains ov.1 then Act.pure () else Act.throw .sysOption

/-- `if keyPredicate`: the key predicate, when there is one and it is not empty. -/
def theKey : Option Keys → Option Keys
  | some (k :: ks) => some (k :: ks)
  | _ => none

/-- KeyError as MissingURISegment, server.py:456, 483. -/
def keyMissing : Except Exc α → Except Exc α
  | .error .key => .error .missing
  | r => r

/-- The state of the loop of `get_resource`: the resource, the last entity passed, `no_nav_path`. -/
structure Walk (E C V X : Type) where
  res : Res E C V X
  parent : Option E
  stop : Bool

/-- server.py:448-462, for what the first segment leads to. -/
def firstKey (S : Service D E C V X Fn F) (r : Res E C V X) (k : Option Keys) : Act D (Res E C V X) :=
  match r with
  | .coll c => match theKey k with
    | some ks => do let e ← Act.read fun d => keyMissing (S.entityAt d c ks); Act.pure (.entity e)
    | none => Act.pure (.coll c)
  | .null => Act.throw .missing
  | r => Act.pure r

/-- One pass of the loop of `get_resource`, server.py:418-511. -/
def walkStep (S : Service D E C V X Fn F) (q : QState F) (w : Walk E C V X) (seg : Seg) : Act D (Walk E C V X) :=
  if w.stop then Act.throw .badSegment
  else match w.res with
  | .model => match S.find seg.1 with
    | none => Act.throw .missing
    | some (.set c) => do let r ← firstKey S (.coll c) seg.2; Act.pure { w with res := r }
    | some .other => Act.throw .missing
    | some (.func f) => do
      let r ← S.exec f q
      let stop ← (match r with | .coll _ => Act.pure false | _ => do checkOpts q 10; Act.pure true)
      let r ← firstKey S r seg.2
      Act.pure { w with res := r, stop := stop }
  | .coll _ => Act.throw .badSegment
  | .values _ => Act.throw .badSegment
  | .entity e => match S.property e seg.1 with
    | none => Act.throw .missing
    | some (.value v) => Act.pure { w with res := .value v, parent := some e }
    | some (.many c) => match theKey seg.2 with
      | some ks => do let e' ← Act.read fun d => keyMissing (S.entityAt d c ks); Act.pure { w with res := .entity e', parent := some e }
      | none => Act.pure { w with res := .coll c, parent := some e }
    | some (.one get) => match theKey seg.2 with
      | some _ => Act.throw .badSegment
      | none => do
        let r ← Act.read get
        Act.pure { w with res := (match r with | some e' => .entity e' | none => .null), parent := some e }
  | .value v => match S.field v with
    | none => Act.throw .badSegment
    | some f => match f seg.1 with
      | some v' => Act.pure { w with res := .value v' }
      | none => Act.throw .missing
  | .null => Act.throw .missing

/-- The loop. -/
def walkLoop (S : Service D E C V X Fn F) (q : QState F) : Walk E C V X → List Seg → Act D (Walk E C V X)
  | w, [] => Act.pure w
  | w, s :: r => do let w ← walkStep S q w s; walkLoop S q w r

/-- server.py:512-533: the options are checked, and a navigation property that leads to nothing is missing. -/
def checkRes (S : Service D E C V X Fn F) (u : Uri' F) (w : Walk E C V X) : Act D Unit :=
  match w.res with
  | .coll _ => checkOpts u.query 1
  | .entity _ =>
    if u.path.opt = some .value then checkOpts u.query 17
    else if u.path.opt ≠ some .links then checkOpts u.query 2
    else Act.pure ()
  | .value v => match S.field v with
    | some _ => checkOpts u.query 3
    | none => checkOpts u.query 4
  | .null => if w.parent.isSome ∧ u.path.opt ≠ some .links then Act.throw .missing else Act.pure ()
  | _ => Act.pure ()

/-- `get_resource(odata_uri)`, server.py:414-534, with a model. -/
def getResource (S : Service D E C V X Fn F) (u : Uri' F) : Act D (Res E C V X × Option E) := do
  let w ← walkLoop S u.query ⟨.model, none, false⟩ u.path.nav
  let _ ← checkRes S u w
  Act.pure (w.res, w.parent)

/-- `return_metadata`, `return_links`, `return_link`, `return_entity`, `return_entity_collection`, `return_value`,
`return_dereferenced_value`, `return_collection`, `return_count`, server.py:913-1328 and 857-874: 406 when no type is
acceptable, before the body is produced.  `return_stream`, 1129-1160, opens the stream before it negotiates: when both fail the
exception comes first there, here it is 406. -/
def reply (S : Service D E C V X Fn F) (q : QState F) (i : Input) (status : Nat) (b : Body E C V X) (loc : Option E) : Act D (Resp E C V X) := do
  let ok ← Act.read fun d => .ok (S.acceptable d q i b)
  if ok then do
    let _ ← Act.read fun d => S.render d b
    Act.pure ⟨status, b, loc⟩
  else Act.pure ⟨406, .error, none⟩

/-- `return_empty`, server.py:1330-1336. -/
def replyEmpty : Act D (Resp E C V X) := Act.pure ⟨204, .empty, none⟩

/-- `read_entity_from_link(environ)`, server.py:962-980, with `get_resource_from_uri`, 395-412, followed by the use of the
result as an entity: AttributeError when it is not one. -/
def linkTarget (S : Service D E C V X Fn F) (i : Input) : Act D E := do
  let u ← Act.lift (S.linkUri i)
  match u with
  | none => Act.throw .other
  | some u => do
    let r ← getResource S u
    match r.1 with
    | .entity e => Act.pure e
    | _ => Act.throw .other

/-- The part of `handle_request` for $links, server.py:576-658. -/
def handleLinks (S : Service D E C V X Fn F) (m : Method) (u : Uri' F) (i : Input) (res : Res E C V X) (parent : Option E) : Act D (Resp E C V X) :=
  match parent with
  | none => Act.throw .badSegment
  | some p =>
    let name := u.path.links.getD []
    match m with
    | .get => match res with
      | .coll c => do
        let _ ← Act.read fun d => S.apply d (.coll c) u.query
        reply S u.query i 200 (.links c) none
      | .entity e => reply S u.query i 200 (.link e) none
      | _ => Act.throw .missing
    | .post => match res with
      | .null | .coll _ => do
        let e ← linkTarget S i
        let _ ← S.insertLink p name e
        replyEmpty
      | _ => Act.throw .badSegment
    | .put =>
      if S.isMany p name then Act.throw .badSegment
      else do
        let e ← linkTarget S i
        let _ ← S.replaceLink p name e
        replyEmpty
    | .delete => match res with
      | .coll _ => Act.throw .badSegment
      | .null => Act.throw .missing
      | .entity e => do
        let _ ← S.deleteLink p name e
        replyEmpty
      | _ => Act.throw .other
    | _ => Act.throw .method

/-- For an entity, server.py:659-728. -/
def handleEntity (S : Service D E C V X Fn F) (m : Method) (u : Uri' F) (i : Input) (e : E) : Act D (Resp E C V X) :=
  let dollar := u.path.opt = some PathOpt.value
  let getIt : Act D (Resp E C V X) :=
    if dollar then
      if S.hasStream e then reply S u.query i 200 (.stream e) none else Act.throw .badSegment
    else do
      let _ ← Act.read fun d => S.apply d (.entity e) u.query
      reply S u.query i 200 (.entity e) none
  let change (merge : Bool) : Act D (Resp E C V X) := do
    let e ← Act.read fun d => S.readEntity d e i
    let _ ← S.update e merge
    let _ ← Act.lift (S.etag e)
    replyEmpty
  match m with
  | .get => getIt
  | .head => getIt
  | .put =>
    if dollar then
      if S.hasStream e then do
        let _ ← S.updateStream e i
        let e ← Act.read fun d => S.reread d e
        let _ ← Act.lift (S.etag e)
        replyEmpty
      else Act.throw .badSegment
    else change false
  | .merge => if dollar then Act.throw .badSegment else change true
  | .delete => if dollar then Act.throw .badSegment else do let _ ← S.delete e; replyEmpty
  | _ => Act.throw .method

/-- For a collection, server.py:729-809. -/
def handleColl (S : Service D E C V X Fn F) (m : Method) (u : Uri' F) (i : Input) (c : C) : Act D (Resp E C V X) :=
  match m with
  | .get => do
    let _ ← Act.read fun d => S.apply d (.coll c) u.query
    reply S u.query i 200 (.feed c) none
  | .post =>
    if S.mediaLink c then do
      let _ ← Act.lift (S.slugKey c i)
      let e ← S.newStream c i
      let e ← (match S.titled e i with
        | some e' => do let _ ← S.update e' false; Act.pure e'
        | none => Act.pure e)
      reply S u.query i 201 (.entity e) (some e)
    else do
      let e ← Act.lift (S.newEntity c)
      let e ← Act.read fun d => S.readEntity d e i
      let e ← S.insert c e
      reply S u.query i 201 (.entity e) (some e)
  | _ => Act.throw .method

/-- `parent_entity.commit()`: AttributeError without a parent. -/
def commitTo (S : Service D E C V X Fn F) (parent : Option E) (v : V) : Act D E :=
  match parent with
  | none => Act.throw .other
  | some p => do let _ ← S.commit p v; Act.pure p

/-- For a value, server.py:810-849. -/
def handleValue (S : Service D E C V X Fn F) (m : Method) (u : Uri' F) (i : Input) (v : V) (parent : Option E) : Act D (Resp E C V X) :=
  let dollar := u.path.opt = some PathOpt.value
  match m with
  | .get =>
    if dollar then if S.nonNull v then reply S u.query i 200 (.raw v) none else Act.throw .missing
    else reply S u.query i 200 (.value v) none
  | .put =>
    if dollar && !S.nonNull v then Act.throw .missing
    else do
      let v ← Act.lift (S.readValue v dollar i)
      let p ← commitTo S parent v
      let _ ← Act.lift (S.etag p)
      replyEmpty
  | .delete =>
    if dollar then Act.throw .badSegment
    else if !S.nullable v then Act.throw .method
    else do
      let _ ← commitTo S parent (S.setNull v)
      replyEmpty
  | _ => Act.throw .method

/-- The body of the `try` of `handle_request`, server.py:552-874. -/
def handleTry (S : Service D E C V X Fn F) (m : Method) (u : Uri' F) (i : Input) : Act D (Resp E C V X) := do
  let (res, parent) ← getResource S u
  match u.path.opt with
  | some .metadata => reply S u.query i 200 .metadata none
  | some .batch => Act.pure ⟨404, .error, none⟩
  | some .count => match res with
    | .entity _ => reply S u.query i 200 (.count 1) none
    | .coll c => do
      let n ← Act.read fun d => S.count d c u.query
      reply S u.query i 200 (.count n) none
    | _ => Act.throw .badSegment
  | some .links => handleLinks S m u i res parent
  | _ => match res with
    | .entity e => handleEntity S m u i e
    | .coll c => handleColl S m u i c
    | .value v => handleValue S m u i v parent
    | .values x => reply S u.query i 200 (.values x) none
    | _ => reply S u.query i 200 .service none

/-- `odata_error`, server.py:367-393. -/
def errorResp (status : Nat) : Resp E C V X := ⟨status, .error, none⟩

/-- The status for an exception: the `except` clauses of `handle_request`, server.py:875-894, then those of `__call__`, 334-365. -/
def statusOf : Exc → Nat
  | .missing => 404 | .badSegment => 400 | .navigation => 403 | .constraint => 403 | .notImplemented => 405
  | .sysOption => 400 | .pathOption => 400 | .method => 400 | .value => 400
  | .key => 500 | .other => 500

/-- `handle_request` inside `__call__`: every exception becomes an answer. -/
def handle (S : Service D E C V X Fn F) (m : Method) (u : Uri' F) (i : Input) (d : D) : D × Resp E C V X :=
  match handleTry S m u i d with
  | (d', .ok r) => (d', r)
  | (d', .error e) => (d', errorResp (statusOf e))

/-- `ReadOnlyServer.handle_request`, server.py:1407-1425. -/
def handleReadOnly (S : Service D E C V X Fn F) (m : Method) (u : Uri' F) (i : Input) (d : D) : D × Resp E C V X :=
  if m = .get ∨ m = .head then handle S m u i d else (d, errorResp 403)

/-- The request as it reaches `__call__`: SCRIPT_NAME + PATH_INFO, QUERY_STRING. -/
structure Request where
  method : Str
  path : Str
  query : Str
  input : Input

/-- What `__call__` does: an answer by this server, or the request is left to the Atom server it extends. -/
inductive Outcome (E C V X : Type) where
  | answer (r : Resp E C V X)
  | atom

/-- `__call__`, server.py:277-365, after the negotiation of the version: `handler` is `handle` or `handleReadOnly`; the parts of
the URI are read as in C130-C135. -/
def call (ids : Ids) (fmt : Str → Option F) (pre : Str) (handler : Method → Uri' F → Input → D → D × Resp E C V X) (r : Request) (d : D) :
    D × Outcome E C V X :=
  match encodePathinfo r.path with
  | none => (d, .answer (errorResp 400))
  | some path =>
    match mkUri ids fmt pre path (if r.query = [] then none else some r.query) with
    | .error _ => (d, .answer (errorResp 400))
    | .ok none => (d, .atom)
    | .ok (some u) =>
      if u.resource = [] then (d, .answer ⟨307, .empty, none⟩)
      else let x := handler (methodOf r.method) ⟨u.path, u.query⟩ r.input d; (x.1, .answer x.2)

end Verif.Srv
