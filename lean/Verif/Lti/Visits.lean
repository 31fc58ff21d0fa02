import Verif.Lti.Nonce
/-!
# C111: visits (pyslet/imsbltiv1p0.py:510-628, 1012-1108, 1154-1208)

The entity sets Resources, Users and Visits as lists of entities; each call is atomic.  Titles and names of resources
and users are the subject of C112.
-/
namespace Verif.Lti

/-! ### Model -/

/-- An entity of `Resources` or `Users`: its key, the key of its consumer, and `LinkID` or `UserID`. -/
structure Ent where
  id : Nat
  consumer : Nat
  name : Str
  deriving DecidableEq

/-- An entity of `Visits`. -/
structure Visit where
  id : Nat
  session : Option Str
  resource : Nat
  user : Option Nat
  permissions : Nat
  deriving DecidableEq

/-- The data. -/
structure Db where
  resources : List Ent
  users : List Ent
  visits : List Visit

/-- `get_resource` and `get_user`, imsbltiv1p0.py:536-566, 590-628: the entities of the consumer with the given name;
the first of these, or else a new one with key `fresh`. -/
def getEnt (l : List Ent) (fresh consumer : Nat) (name : Str) : Ent × List Ent :=
  match l.filter (fun e => e.consumer == consumer && e.name == name) with
  | [] => (⟨fresh, consumer, name⟩, l ++ [⟨fresh, consumer, name⟩])
  | e :: _ => (e, l)

/-- The consumer of a resource. -/
def consumerOf (l : List Ent) (id : Nat) : Option Nat := (l.find? fun e => e.id == id).map (·.consumer)

/-- `update_entity` of a visit in which only `Session` is selected. -/
def setSessionOf (vs : List Visit) (id : Nat) (s : Option Str) : List Visit :=
  vs.map fun w => if w.id = id then { w with session := s } else w

/-- The visits that "Session eq :sid" selects. -/
def inSession (vs : List Visit) (sid : Str) : List Visit := vs.filter fun v => v.session == some sid

/-- The loop of `new_visit`, imsbltiv1p0.py:1037-1057, over the visits that were read before. -/
def dropLoop (resources : List Ent) (consumer resource : Nat) (user : Option Nat) : List Visit → List Visit → List Visit
  | vs, [] => vs
  | vs, old :: rest =>
    if old.resource = resource then dropLoop resources consumer resource user (setSessionOf vs old.id none) rest
    else if consumerOf resources old.resource = some consumer then
      if user ≠ old.user then dropLoop resources consumer resource user (setSessionOf vs old.id none) rest
      else dropLoop resources consumer resource user vs rest
    else dropLoop resources consumer resource user vs rest

/-- `new_visit`, imsbltiv1p0.py:1028-1074. -/
def newVisit (db : Db) (fresh : Nat) (sid : Str) (consumer resource : Nat) (user : Option Nat) (permissions : Nat) :
    List Visit :=
  dropLoop db.resources consumer resource user db.visits (inSession db.visits sid) ++
    [⟨fresh, some sid, resource, user, permissions⟩]

/-- What happens: a launch that was authorized, with the consumer, the resource link, the user if there is one, the
permissions and the session; or the session becomes established and its id changes. -/
inductive Event
  | launch (consumer : Nat) (link : Str) (user : Option Str) (permissions : Nat) (sid : Str)
  | establish (sid newSid : Str)

/-- `auto_key` gives a new entity some key that is not in use (csdl.py `Entity.auto_key`). -/
def Picks (pick : List Nat → Nat) : Prop := ∀ l, pick l ∉ l

/-- `lti_launch` from `set_launch_resource` to `new_visit`, imsbltiv1p0.py:1223-1229, and `establish_session`,
imsbltiv1p0.py:1093-1108. -/
def Db.step (pick : List Nat → Nat) (db : Db) : Event → Db
  | .launch c link user p sid =>
    let (r, rs) := getEnt db.resources (pick (db.resources.map Ent.id)) c link
    let (u, us) := match user with
      | none => (none, db.users)
      | some name =>
        let (e, us) := getEnt db.users (pick (db.users.map Ent.id)) c name
        (some e.id, us)
    let db1 : Db := ⟨rs, us, db.visits⟩
    { db1 with visits := newVisit db1 (pick (db.visits.map Visit.id)) sid c r.id u p }
  | .establish sid newSid =>
    { db with visits := (inSession db.visits sid).foldl (fun vs v => setSessionOf vs v.id (some newSid)) db.visits }

/-- `find_visit`, imsbltiv1p0.py:1076-1091. -/
def findVisit (db : Db) (sid : Str) (resource : Nat) : Option Visit :=
  (inSession db.visits sid).find? fun v => v.resource == resource

/-- A page of the resource, `load_visit`, imsbltiv1p0.py:1186-1208: `none`: PageNotAuthorized; otherwise the
permissions and the user of the visit. -/
def loadVisit (db : Db) (sid : Str) (resource : Nat) : Option (Nat × Option Nat) :=
  (findVisit db sid resource).map fun v => (v.permissions, v.user)

/-- The events in turn. -/
def Db.run (pick : List Nat → Nat) (db : Db) (es : List Event) : Db := es.foldl (Db.step pick) db

/-- No entities. -/
def Db.empty : Db := ⟨[], [], []⟩

/-! ### Specification -/

/-- Who may do what: for a session, a consumer and a resource link, the user and the permissions. -/
abbrev Access := Str → Nat → Str → Option (Option Str × Nat)

/-- A launch gives access to the resource, with the user and permissions of that launch, and ends the access of other
users of the same consumer in the session.  Establishing a session moves all its access to the new id. -/
def Access.step (a : Access) : Event → Access
  | .launch c link user p sid => fun s c' l =>
    if s = sid ∧ c' = c then
      if l = link then some (user, p)
      else match a s c' l with
        | some (u, q) => if u = user then some (u, q) else none
        | none => none
    else a s c' l
  | .establish sid newSid => fun s c l => if s = newSid then a sid c l else if s = sid then none else a s c l

/-- Nobody has access at the start. -/
def Access.after (es : List Event) : Access := es.foldl Access.step fun _ _ _ => none

/-- The session ids in use. -/
def Event.sids : Event → List Str
  | .launch _ _ _ _ s => [s]
  | .establish a b => [a, b]

/-- Session ids are new when a session is established. -/
def FreshSids (es : List Event) : Prop :=
  ∀ pre sid newSid post, es = pre ++ .establish sid newSid :: post → newSid ≠ sid ∧ ∀ e ∈ pre, newSid ∉ e.sids

/-- The resource that a consumer calls `link`. -/
def resourceId (db : Db) (c : Nat) (link : Str) : Option Nat :=
  (db.resources.find? fun e => e.consumer == c && e.name == link).map (·.id)

/-- The id that a consumer gave to a user. -/
def userName (db : Db) (id : Nat) : Option Str := (db.users.find? fun e => e.id == id).map (·.name)

end Verif.Lti
