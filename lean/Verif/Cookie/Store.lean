import Verif.Http.Params
/-!
# Model of the cookie store, `pyslet/http/cookie.py:21-188, 993-1554`

Byte strings and texts are lists of codes.  The tree of `CookieDNode` objects is modelled as a function from the path of labels that leads
to a node (top-level domain first) to its attributes; the store itself is at the empty path.  Punycode is not modelled: `puny` is any
function, `none` stands for a `UnicodeError`.  `threading.RLock` is not modelled: operations are atomic.  `Cookie.access_time` is not
modelled.  Times are integers.
-/
namespace Verif.Cookie
open Http (Bytes splitByte joinByte lowerBytes)
open Text (isDigit)

abbrev Label := Bytes
abbrev Domain := List Label

/-! ## Domain names -/

/-- `grammar.is_alpha`. -/
def isAlpha (b : Nat) : Bool := (65 ≤ b && b ≤ 90) || (97 ≤ b && b ≤ 122)

/-- The loop of `is_ldh_label`, cookie.py:59-66; the flags are `allow_hyphen` and `trailing_hyphen`. -/
def ldhLoop : Bool → Bool → Bytes → Bool
  | _, tr, [] => !tr
  | al, _, b :: r => if isAlpha b || isDigit b || (al && b == 45) then ldhLoop true (b == 45) r else false

/-- `is_ldh_label`, cookie.py:32-66. -/
def isLdh (l : Label) : Bool := if l.isEmpty || l.length > 63 then false else ldhLoop false false l

/-- The label '*'. -/
def star : Label := [42]

/-- One label in `split_domain`, cookie.py:133-145; `puny l` is `b"xn--%s" % label.decode('utf-8').encode('punycode')`. -/
def splitLabel (puny : Bytes → Option Bytes) (wild : Bool) (l : Label) : Option Label :=
  if isLdh l then some (lowerBytes l)
  else if wild && l == star then some star
  else match puny l with
    | none => none
    | some a => if isLdh a then some (lowerBytes a) else none

/-- `split_domain`, cookie.py:109-146: `none` is a ValueError. -/
def splitDomain (puny : Bytes → Option Bytes) (wild : Bool) (s : Bytes) : Option Domain := (splitByte 46 s).mapM (splitLabel puny wild)

/-- `domain_in_domain`, cookie.py:149-171. -/
def domainIn : Domain → Domain → Bool
  | [], _ => true
  | _ :: _, [] => false
  | d :: s, e :: h => if d ≠ e then false else domainIn s h

/-! ## Cookies and nodes -/

/-- `Cookie`, cookie.py:713-816. -/
structure Cookie where
  name : Bytes
  value : Bytes
  path : Option Bytes
  domain : Option Bytes
  secure : Bool
  httpOnly : Bool
  creation : Int
  expires : Option Int
  deriving DecidableEq, Repr

/-- `expired`, cookie.py:913-926. -/
def Cookie.expired (c : Cookie) (now : Int) : Bool :=
  match c.expires with
  | none => false
  | some e => now > e

/-- `CookieDNode`, cookie.py:993-1001, and the attribute `public_depth` of `CookieStore`. -/
structure Node where
  pub : Bool
  priv : Bool
  depth : Nat
  cookies : List Cookie
  deriving DecidableEq, Repr

abbrev Store := Domain → Option Node

/-- `CookieStore()`, cookie.py:1018-1023. -/
def newStore : Store := fun q => if q = [] then some ⟨false, false, 255, []⟩ else none

/-- Replace a node. -/
def Store.set (t : Store) (p : Domain) (n : Node) : Store := fun q => if q = p then some n else t q
/-- Change a node. -/
def Store.modify (t : Store) (p : Domain) (f : Node → Node) : Store := fun q => if q = p then (t q).map f else t q
/-- Change the children of a node: `for child in dict_values(old_node.nodes)`. -/
def Store.children (t : Store) (p : Domain) (f : Node → Node) : Store := fun q => if q ≠ [] ∧ q.dropLast = p then (t q).map f else t q

/-- `_expand_node` and `_copy_node`, cookie.py:1524-1554. -/
def expand (t : Store) (p : Domain) (d : Label) : Store :=
  if d ≠ star ∧ (t (p ++ [star])).isSome then
    fun q => if (p ++ [d]).isPrefixOf q then (t (p ++ star :: q.drop (p.length + 1))).map fun n => { n with cookies := [] } else t q
  else
    match t p with
    | none => t
    | some n => if n.depth ≠ 0 then t.set (p ++ [d]) ⟨true, false, n.depth - 1, []⟩ else t.set (p ++ [d]) ⟨false, false, 0, []⟩

/-- The loop that goes down the tree in `set_cookie`, cookie.py:1078-1083. -/
def ensure (t : Store) (p : Domain) : Domain → Store
  | [] => t
  | d :: ds => ensure (if (t (p ++ [d])).isSome then t else expand t p d) (p ++ [d]) ds

/-! ## Cookies in the store -/

/-- The URL of a request: its host, `abs_path`, and whether it is an `HTTPURL` and an `HTTPSURL` (a subclass), params.py:224-289. -/
structure Url where
  host : Bytes
  path : Option Bytes
  http : Bool
  https : Bool
  deriving DecidableEq, Repr

/-- What is raised. -/
inductive Err where
  | cookie
  | value
  | unbound
  deriving DecidableEq, Repr

/-- The default path, cookie.py:1067-1075. -/
def defaultPath : Option Bytes → Bytes
  | none => [47]
  | some p =>
    if p.head? = some 47 then
      if (splitByte 47 p).length > 2 then joinByte 47 (splitByte 47 p).dropLast else [47]
    else [47]

/-- The keys `(c.name, c.path)` are equal. -/
def sameKey (c o : Cookie) : Bool := c.name == o.name && c.path == o.path

/-- The creation time of the old cookie is kept, cookie.py:1094-1095. -/
def keepCreation (old : Option Cookie) (c : Cookie) : Cookie :=
  match old with
  | some o => { c with creation := o.creation }
  | none => c

/-- The default path is set, cookie.py:1067. -/
def fillPath (p : Bytes) (c : Cookie) : Cookie :=
  match c.path with
  | none => { c with path := some p }
  | some _ => c

/-- The cookies of the node after `set_cookie`, cookie.py:1093-1098. -/
def putCookie (cs : List Cookie) (c : Cookie) (now : Int) : List Cookie :=
  let c := keepCreation (cs.find? (sameKey c)) c
  let cs := cs.filter fun o => !sameKey c o
  if c.expired now then cs else cs ++ [c]

/-- The reversed labels of the host; `none` is an UnboundLocalError (line 1052 reads `host` before it is set). -/
def hostOf (puny : Bytes → Option Bytes) (s : Bytes) : Option Domain := (splitDomain puny false s).map List.reverse

/-- The reversed labels of the domain of a cookie, cookie.py:1053-1065. -/
def domainOf (puny : Bytes → Option Bytes) (host : Domain) : Option Bytes → Except Err Domain
  | none => .ok host
  | some s => match splitDomain puny false s with
    | none => .error .value
    | some d => if domainIn d.reverse host then .ok d.reverse else .error .cookie

/-- `set_cookie`, cookie.py:1025-1098: the store afterwards and what is raised. The second match has no second case in a store: `ensure` makes the node. -/
def setCookie (puny : Bytes → Option Bytes) (t : Store) (url : Url) (c : Cookie) (now : Int) : Store × Option Err :=
  if !url.http && c.httpOnly then (t, some .cookie)
  else match hostOf puny url.host with
  | none => (t, some .unbound)
  | some host =>
    match domainOf puny host c.domain with
    | .error e => (t, some e)
    | .ok dom =>
      let c := fillPath (defaultPath url.path) c
      let t := ensure t [] dom
      match t dom with
      | none => (t, none)
      | some n =>
        if n.pub then
          if dom.length = host.length then (t.set dom { n with cookies := putCookie n.cookies { c with domain := none } now }, none)
          else (t, some .cookie)
        else (t.set dom { n with cookies := putCookie n.cookies c now }, none)

/-- The test of the path, cookie.py:1144-1152; `c.path` is not empty (`c.path[-1]` raises IndexError otherwise). -/
def pathTest (url : Option Bytes) (path : Bytes) : Bool :=
  match url with
  | none => false
  | some u => !(u.length < path.length) && (path.isPrefixOf u && (path.getLast? == some 47 || (u.drop path.length).take 1 == [47]))

/-- The tests on a cookie, cookie.py:1138-1157. -/
def cookieTest (url : Url) (now : Int) (hostMatch : Bool) (c : Cookie) : Bool :=
  !c.expired now && !(c.domain.isNone && !hostMatch) && pathTest url.path (c.path.getD []) && !(c.secure && !url.https) && !(c.httpOnly && !url.http)

/-- The loop of `search`, cookie.py:1126-1161. -/
def searchLoop (url : Url) (now : Int) : Store → Domain → Domain → Store × List Cookie
  | t, _, [] => (t, [])
  | t, p, d :: ds =>
    match t (p ++ [d]) with
    | none => (t, [])
    | some n =>
      let r := searchLoop url now (t.set (p ++ [d]) { n with cookies := n.cookies.filter fun c => !c.expired now }) (p ++ [d]) ds
      (r.1, n.cookies.filter (cookieTest url now ds.isEmpty) ++ r.2)

/-- The key `(-len(x.path), x.creation_time)` is at most that of the other, cookie.py:1164. -/
def keyLe (a b : Cookie) : Bool :=
  (b.path.getD []).length < (a.path.getD []).length || ((b.path.getD []).length == (a.path.getD []).length && a.creation ≤ b.creation)

/-- `search`, cookie.py:1100-1165; `none` is an UnboundLocalError. -/
def search (puny : Bytes → Option Bytes) (t : Store) (url : Url) (now : Int) : Store × Option (List Cookie) :=
  match hostOf puny url.host with
  | none => (t, none)
  | some host =>
    let r := searchLoop url now t [] host
    (r.1, some (r.2.mergeSort keyLe))

/-- `expire_cookies` and `end_session`, cookie.py:1167-1222: cookies are removed from all nodes. -/
def removeAll (t : Store) (p : Cookie → Bool) : Store := fun q => if q = [] then t q else (t q).map fun n => { n with cookies := n.cookies.filter fun c => !p c }

/-! ## Public suffixes -/

/-- The loop of `add_public_suffix`, cookie.py:1241-1273. -/
def publicLoop : Store → Domain → Domain → Store
  | t, _, [] => t
  | t, p, d :: ds =>
    publicLoop (match t (p ++ [d]) with
      | none =>
        if d = star then
          if ds = [] then
            (t.modify p fun n => if n.depth < 1 then { n with depth := 1 } else n).children p fun n => if n.priv then n else { n with pub := true }
          else expand t p d
        else (expand t p d).modify (p ++ [d]) fun n => { n with pub := true }
      | some _ =>
        if ds = [] then
          let t := t.modify (p ++ [d]) fun n => if n.priv then n else { n with pub := true }
          if d = star then t.children p fun n => if n.priv then n else { n with pub := true } else t
        else t) (p ++ [d]) ds

/-- The loop of `add_private_suffix`, cookie.py:1291-1327. -/
def privateLoop : Store → Domain → Domain → Store
  | t, _, [] => t
  | t, p, d :: ds =>
    privateLoop (match t (p ++ [d]) with
      | none =>
        if d = star then
          if ds = [] then (t.modify p fun n => { n with depth := 0 }).children p fun n => { n with priv := true, pub := false }
          else expand t p d
        else if ds = [] then (expand t p d).modify (p ++ [d]) fun n => { n with priv := true, pub := false }
        else expand t p d
      | some _ =>
        if ds = [] then
          let t := t.modify (p ++ [d]) fun n => { n with priv := true, pub := false }
          if d = star then t.children p fun n => { n with priv := true, pub := false } else t
        else t) (p ++ [d]) ds

/-- `add_public_suffix`, cookie.py:1224-1273: `none` is a ValueError. -/
def addPublic (puny : Bytes → Option Bytes) (t : Store) (s : Bytes) : Option Store := (splitDomain puny true s).map fun d => publicLoop t [] d.reverse
/-- `add_private_suffix`, cookie.py:1275-1327: `none` is a ValueError. -/
def addPrivate (puny : Bytes → Option Bytes) (t : Store) (s : Bytes) : Option Store := (splitDomain puny true s).map fun d => privateLoop t [] d.reverse

/-- The loop of `test_public_domain`, cookie.py:1418-1432. -/
def testLoop (t : Store) : Domain → Domain → Bool
  | _, [] => false
  | p, d :: ds =>
    match t (p ++ [d]) with
    | none => match t p with
      | none => false
      | some n => if ds.length + 1 > n.depth then false else true
    | some n => if ds = [] then n.pub else testLoop t (p ++ [d]) ds

/-- `test_public_domain`, cookie.py:1407-1432: `none` is a ValueError. -/
def testPublic (puny : Bytes → Option Bytes) (t : Store) (s : Bytes) : Option Bool := (splitDomain puny false s).map fun d => testLoop t [] d.reverse

/-- The loop of `get_registered_domain`, cookie.py:1465-1491; `m` is `matched`. -/
def registeredLoop (t : Store) : Domain → Domain → Domain → Option Domain
  | _, m, [] => some m
  | p, m, d :: ds =>
    match t (p ++ [d]) with
    | none => match t p with
      | none => none
      | some n => if ds.length + 1 > n.depth then some (m ++ (d :: ds).take (n.depth + 1)) else none
    | some n =>
      if !n.pub then some (m ++ [d])
      else if ds = [] then none
      else registeredLoop t (p ++ [d]) (m ++ [d]) ds

/-- `get_registered_domain` without `u_labels`, cookie.py:1434-1498: the outer `none` is a ValueError, the inner one the result None. -/
def registered (puny : Bytes → Option Bytes) (t : Store) (s : Bytes) : Option (Option Bytes) :=
  (splitDomain puny false s).map fun d => (registeredLoop t [] [] d.reverse).map fun m => joinByte 46 m.reverse

end Verif.Cookie
