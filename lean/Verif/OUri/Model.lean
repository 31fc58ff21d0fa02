import Verif.OData.Key
import Verif.OUri.Expand
import Verif.OUri.C133
/-!
# Model of `ODataURI.__init__`: `pyslet/odata2/core.py` 1922-2058, 2109-2368

The URI is given by its absolute path and its query (the parsing of the URI itself is C20-C24).
-/
namespace Verif.OUri

open Verif.OData Verif.Text
open Verif.Uri (unescapeData)

/-- The exceptions: InvalidPathOption, InvalidSystemQueryOption, and ValueError (with its subclasses for bad escapes). -/
inductive Err where
  | path
  | sys
  | value
deriving DecidableEq, Repr

/-- `PathOption`, core.py:1961-1978. -/
inductive PathOpt where
  | metadata | batch | count | value | links
deriving DecidableEq, Repr

/-- White space, for `str.strip`. -/
def blank (c : Nat) : Bool :=
  (9 ≤ c && c ≤ 13) || (28 ≤ c && c ≤ 32) || c == 0x85 || c == 0xA0 || c == 0x1680 || (0x2000 ≤ c && c ≤ 0x200A) ||
  c == 0x2028 || c == 0x2029 || c == 0x202F || c == 0x205F || c == 0x3000

/-- `s.strip()` -/
def strip (s : Str) : Str := ((s.dropWhile blank).reverse.dropWhile blank).reverse

/-- `PathOption.from_str_lower(src)`, xsdatatypes.py:631-640; `none`: ValueError.  (`lower` is ASCII only: what is in a URI
path is ASCII.) -/
def pathOptOf (src : Str) : Option PathOpt :=
  let s := lower (strip src)
  if s = chars "metadata" then some .metadata
  else if s = chars "batch" then some .batch
  else if s = chars "count" then some .count
  else if s = chars "value" then some .value
  else if s = chars "links" then some .links
  else none

/-- A segment of the navigation path: the name and the key predicate. -/
abbrev Seg := Str × Option (List (Str × Val))

/-- What the loop over the segments changes: `nav_path`, `path_option`, `links_property`. -/
structure PState where
  nav : List Seg
  opt : Option PathOpt
  links : Option Str

/-- `split_segment` with its exceptions, all of them ValueErrors. -/
def splitE (ids : Ids) (s : Str) : Except Err Seg := match splitSegment ids s with | some r => .ok r | none => .error .value

/-- One pass of the loop over the segments, core.py:2176-2219.  `PathOption.from_str_lower` raises ValueError, which the
`except KeyError` of core.py:2191 does not catch.  The tests of core.py:2199-2208 look at `self.path_option`, which is None
by then (core.py:2193), so they never fire. -/
def segStep (ids : Ids) (st : PState) (segment : Str) : Except Err PState :=
  if st.opt = some .links then
    if st.links.isSome then .error .path
    else if segment.head? = some 36 then .error .path
    else do
      let np ← splitE ids segment
      .ok { st with nav := st.nav ++ [np], links := some np.1 }
  else if segment.head? = some 36 then
    match pathOptOf segment.tail with
    | none => .error .value
    | some o => if st.opt.isSome then .error .path else .ok { st with opt := some o }
  else if st.opt.isSome then .error .path
  else do
    let np ← splitE ids segment
    .ok { st with nav := st.nav ++ [np] }

/-- The loop, core.py:2175-2219. -/
def segLoop (ids : Ids) : PState → List Str → Except Err PState
  | st, [] => .ok st
  | st, s :: r => do segLoop ids (← segStep ids st s) r

/-- core.py:2169-2223, from the resource path. -/
def resourcePath (ids : Ids) (path : Str) : Except Err PState :=
  if path = [47] then .ok ⟨[], none, none⟩
  else do
    let st ← segLoop ids ⟨[], none, none⟩ (Uri.splitOn 47 path).tail
    if st.opt = some .links ∧ st.links = none then .error .path else .ok st

/-- `SystemQueryOption`, core.py:1922-1943. -/
inductive SysOpt where
  | expand | filter | orderby | format | skip | top | skiptoken | inlinecount | select
deriving DecidableEq, Repr

/-- The names, core.py:1933-1943. -/
def SysOpt.name : SysOpt → Str
  | .expand => chars "expand" | .filter => chars "filter" | .orderby => chars "orderby" | .format => chars "format"
  | .skip => chars "skip" | .top => chars "top" | .skiptoken => chars "skiptoken" | .inlinecount => chars "inlinecount"
  | .select => chars "select"

/-- All of them. -/
def SysOpt.all : List SysOpt := [.expand, .filter, .orderby, .format, .skip, .top, .skiptoken, .inlinecount, .select]

/-- `SystemQueryOption.from_str(src)`, xsdatatypes.py:619-627. -/
def sysOptOf (src : Str) : Option SysOpt := SysOpt.all.find? fun o => o.name = strip src

/-- The value of an option; `F` is the type of the accept lists of $format. -/
inductive OptVal (F : Type) where
  | filter (e : Expr)
  | tree (t : Tree)
  | orderby (l : List (Expr × Int))
  | format (f : F)
  | num (n : Nat)
  | token (s : Str)
  | inline (allpages : Bool)

/-- `param_parser.require_production_end(param_parser.parse_integer(), …)`, core.py:2286-2290. -/
def numOption (s : Str) : Option Nat :=
  match digits 1 none s with
  | .ok d [] => some (decVal d)
  | _ => none

/-- `InlineCount.from_str_lower(param_value)`, core.py:2292. -/
def inlineOption (s : Str) : Option Bool :=
  if lower (strip s) = chars "allpages" then some true
  else if lower (strip s) = chars "none" then some false
  else none

/-- The value of a system query option, core.py:2254-2298; the parsing of $format (AcceptList, with the short names) is
given.  `none`: a ValueError, or InvalidSystemQueryOption raised directly; both end as InvalidSystemQueryOption. -/
def optValue {F : Type} (ids : Ids) (fmt : Str → Option F) (o : SysOpt) (s : Str) : Option (OptVal F) :=
  match o with
  | .filter => (exprFromStr ids none s).map .filter
  | .expand => (parseExpand ids s).map .tree
  | .format => (fmt s).map .format
  | .orderby => (orderbyFromStr ids s).map .orderby
  | .skip => (numOption s).map .num
  | .top => (numOption s).map .num
  | .inlinecount => (inlineOption s).map .inline
  | .select => (parseSelect ids s).map .tree
  | .skiptoken => some (.token s)

/-- `parse_sys_query_option(param_name, param_value)`, core.py:2237-2301. -/
def sysOption {F : Type} (ids : Ids) (fmt : Str → Option F) (name value : Str) : Except Err (SysOpt × OptVal F) :=
  match sysOptOf name with
  | none => .error .sys
  | some o => match optValue ids fmt o value with | none => .error .sys | some v => .ok (o, v)

/-- `uri.unescape_data(s).decode('utf-8')`; its exceptions are ValueErrors. -/
def decodeE (s : Str) : Except Err Str :=
  match (unescapeData s).bind utf8Decode with | some t => .ok t | none => .error .value

/-- What the loop over the options changes: `sys_query_options` and `param_table` (association lists, latest first) and
`query_options`. -/
structure QState (F : Type) where
  sys : List (SysOpt × OptVal F)
  custom : List Str
  params : List (Str × Nat)

/-- The parts of an option before and after the first "="; `none` when there is none. -/
def atEquals (s : Str) : Option (Str × Str) :=
  if 61 ∈ s then some (s.takeWhile (· ≠ 61), (s.dropWhile (· ≠ 61)).tail) else none

/-- One pass of the loop over the options, core.py:2153-2166: `index('=')` raises ValueError when there is none. -/
def optStep {F : Type} (ids : Ids) (fmt : Str → Option F) (st : QState F) (def_ : Str) : Except Err (QState F) :=
  if def_.head? = some 36 then
    match atEquals def_.tail with
    | none => .error .value
    | some (n, v) => do
      let n ← decodeE n
      let v ← decodeE v
      let ov ← sysOption ids fmt n v
      .ok { st with sys := ov :: st.sys }
  else
    match atEquals def_ with
    | some (n, _) => do
      let n ← decodeE n
      .ok { st with params := (n, st.custom.length) :: st.params, custom := st.custom ++ [def_] }
    | none => .ok { st with custom := st.custom ++ [def_] }

/-- The loop, core.py:2152-2166. -/
def optsLoop {F : Type} (ids : Ids) (fmt : Str → Option F) : QState F → List Str → Except Err (QState F)
  | st, [] => .ok st
  | st, d :: r => do optsLoop ids fmt (← optStep ids fmt st d) r

/-- core.py:2150-2166. -/
def queryOptions {F : Type} (ids : Ids) (fmt : Str → Option F) (query : Option Str) : Except Err (QState F) :=
  match query with
  | none => .ok ⟨[], [], []⟩
  | some q => optsLoop ids fmt ⟨[], [], []⟩ (Uri.splitOn 38 q)

/-- The rows of `SupportedSystemQueryOptions` used by the constructor, core.py:2025-2056. -/
def supported : Nat → List SysOpt
  | 7 => [.format, .skip, .top, .skiptoken, .inlinecount]
  | 8 => []
  | 9 => []
  | 15 => [.expand, .filter, .orderby, .skip, .top]
  | 16 => [.expand, .filter]
  | _ => []

/-- `validate_sys_query_options(uri_num)`, core.py:2303-2309. -/
def validate {F : Type} (q : QState F) (num : Nat) : Except Err Unit :=
  if q.sys.all fun ov => (supported num).contains ov.1 then .ok () else .error .sys

/-- `if self.nav_path and self.nav_path[-1][1]`, core.py:2232: the last segment has a key predicate that is not empty. -/
def keyed (nav : List Seg) : Bool :=
  match nav.getLast? with
  | some (_, some (_ :: _)) => true
  | _ => false

/-- core.py:2224-2235. -/
def checkOption {F : Type} (p : PState) (q : QState F) : Except Err Unit :=
  match p.opt with
  | some .links => validate q 7
  | some .metadata => validate q 8
  | some .batch => validate q 9
  | some .count => if keyed p.nav then validate q 16 else validate q 15
  | _ => .ok ()

/-- The state of an ODataURI whose path matched the prefix. -/
structure OUri (F : Type) where
  resource : Str
  path : PState
  query : QState F

/-- `ODataURI(ds_uri, path_prefix)`, core.py:2109-2235, from the absolute path and the query; `none`: the path does not
match and the object is left with no resource path. -/
def mkUri {F : Type} (ids : Ids) (fmt : Str → Option F) (pre path : Str) (query : Option Str) : Except Err (Option (OUri F)) :=
  if !(pre.isPrefixOf path) then .ok none
  else do
    let q ← queryOptions ids fmt query
    let p ← resourcePath ids (path.drop pre.length)
    let _ ← checkOption p q
    .ok (some ⟨path.drop pre.length, p, q⟩)

/-- `get_param_value(param_name)`, core.py:2361-2368: the literal, `.null` for a missing parameter. -/
def paramValue {F : Type} (ids : Ids) (q : QState F) (name : Str) : Except Err Val :=
  match q.params.lookup name with
  | none => .ok .null
  | some i =>
    match (q.custom[i]?).bind atEquals with
    | none => .error .value          -- does not happen
    | some (_, v) => match uriLiteral ids v with | some v => .ok v | none => .error .value

end Verif.OUri
