import Verif.Uri.Path
/-!
# Model of `pyslet/rfc2396.py` class `URI`: parsing, resolving, making relative

Subclasses add attributes (`ServerBasedURL`, modelled in `Verif.Uri.Server`) or further checks (`URN`); the
objects here are plain `URI` instances, which is what `from_octets` creates for schemes without a registered
class.  Text only (byte strings are decoded as ASCII first).
-/
namespace Verif.Uri

/-- The attributes set by the parsers. -/
structure Parts where
  opaquePart : Option Str := none
  authority : Option Str := none
  absPath : Option Str := none
  relPath : Option Str := none
  query : Option Str := none
deriving DecidableEq, Repr

/-- The `mode` variable of the two parsers, with the start index that goes with it. -/
inductive PMode | start | slash | auth (astart : Nat) | path (pstart : Nat) | rel (rstart : Nat) | query (qstart : Nat)
deriving DecidableEq

/-- `s[a:b]` -/
def slice (s : Str) (a b : Nat) : Str := (s.take b).drop a

/-- The modes '/', 'a', 'p', 'r' and '?' which `parse_scheme_specific_part` (rfc2396.py:971-1018) and
`_parse_relative_uri` (rfc2396.py:1047-1104) share.  `rest` is `s[pos:]`. -/
def partsLoop (s : Str) (mode : PMode) (pos : Nat) (rest : Str) (p : Parts) : Parts :=
  match rest with
  | [] =>
    match mode with
    | .start => p
    | .slash => { p with absPath := some [47] }
    | .auth a => { p with authority := some (slice s a pos) }
    | .path a => { p with absPath := some (slice s a pos) }
    | .rel a => { p with relPath := some (slice s a pos) }
    | .query a => { p with query := some (slice s a pos) }
  | c :: rest =>
    match mode with
    | .start => p
    | .slash =>
      if c = 47 then partsLoop s (.auth (pos + 1)) (pos + 1) rest p
      else if c = 63 then partsLoop s (.query (pos + 1)) (pos + 1) rest { p with absPath := some [47] }
      else partsLoop s (.path (pos - 1)) (pos + 1) rest p
    | .auth a =>
      if c = 47 then partsLoop s (.path pos) (pos + 1) rest { p with authority := some (slice s a pos) }
      else if c = 63 then partsLoop s (.query (pos + 1)) (pos + 1) rest { p with authority := some (slice s a pos) }
      else partsLoop s (.auth a) (pos + 1) rest p
    | .path a =>
      if c = 63 then partsLoop s (.query (pos + 1)) (pos + 1) rest { p with absPath := some (slice s a pos) }
      else partsLoop s (.path a) (pos + 1) rest p
    | .rel a =>
      if c = 63 then partsLoop s (.query (pos + 1)) (pos + 1) rest { p with relPath := some (slice s a pos) }
      else partsLoop s (.rel a) (pos + 1) rest p
    | .query a => partsLoop s (.query a) (pos + 1) rest p

/-- `parse_scheme_specific_part`, rfc2396.py:934-1018: the first step is mode ':'. -/
def parseSchemeSpecificPart (s : Str) : Parts :=
  match s with
  | [] => {}
  | c :: rest => if c = 47 then partsLoop s .slash 1 rest {} else { opaquePart := some s }

/-- `_parse_relative_uri`, rfc2396.py:1020-1104: the first step is mode None. -/
def parseRelativeUri (s : Str) : Parts :=
  match s with
  | [] => { relPath := some [] }
  | c :: rest =>
    if c = 47 then partsLoop s .slash 1 rest {}
    else if c = 63 then partsLoop s (.query 1) 1 rest { relPath := some [] }
    else partsLoop s (.rel 0) 1 rest {}

/-- The loop of `_parse_scheme`, rfc2396.py:179-188. -/
def schemeLoop (octets : Str) (pos : Nat) : Str → Option Str
  | [] => none
  | c :: r =>
    if (pos ≠ 0 ∧ isSchemeChar c = true) ∨ isAlpha c = true then schemeLoop octets (pos + 1) r
    else if c = 58 then some (octets.take pos)
    else none

/-- `_parse_scheme`, rfc2396.py:176-188. -/
def parseScheme (octets : Str) : Option Str := schemeLoop octets 0 octets

/-- A URI object, rfc2396.py:840-884. -/
structure URI where
  octets : Str
  fragment : Option Str
  scheme : Option Str
  ssp : Option Str
  parts : Parts
deriving DecidableEq, Repr

/-- The part of `__init__` after the fragment is split off, rfc2396.py:861-884. -/
def mkURI (octets : Str) (fragment : Option Str) : URI :=
  match parseScheme octets with
  | some scheme =>
    let ssp := octets.drop (scheme.length + 1)
    ⟨octets, fragment, some scheme, some ssp, parseSchemeSpecificPart ssp⟩
  | none => ⟨octets, fragment, none, none, parseRelativeUri octets⟩

/-- `URI.__init__`, rfc2396.py:840-884; `none`: URIException. -/
def URI.init (octets : Str) : Option URI :=
  let n := parseUric octets
  match octets.drop n with
  | [] => some (mkURI (octets.take n) none)
  | c :: _ =>
    if c = 35 then
      let m := parseUric octets (n + 1)
      if n + 1 + m < octets.length then none
      else some (mkURI (octets.take n) (some ((octets.drop (n + 1)).take m)))
    else none

/-- `str(uri)`, rfc2396.py:893-897. -/
def URI.str (u : URI) : Str :=
  match u.fragment with
  | some f => u.octets ++ 35 :: f
  | none => u.octets

/-- `from_octets`, rfc2396.py:695-738, for ASCII text (on which `encode_unicode_uri` is the identity). -/
def fromOctets (octets : Str) : Option URI := URI.init octets

/-- `'?' + query` and `'#' + fragment` as appended by `resolve` and `relative`, rfc2396.py:1240-1245. -/
def queryFragment (q f : Option Str) : Str :=
  (match q with | some q => 63 :: q | none => []) ++ (match f with | some f => 35 :: f | none => [])

/-- `resolve`, rfc2396.py:1147-1246, with `current_doc_ref=None` and a URI as base; `none`: an exception
(`split_path(None)` when the base has neither path raises nothing: `''` or None are falsy). -/
def URI.resolve (u base : URI) : Option URI :=
  let p := u.parts
  if (p.absPath.getD [] = [] ∧ p.relPath.getD [] = []) ∧ u.scheme = none ∧ p.authority = none ∧ p.query = none then
    match u.fragment with
    | none => fromOctets base.octets
    | some f => fromOctets (base.octets ++ 35 :: f)
  else if u.scheme.isSome then fromOctets u.str
  else do
    let (authority, absPath, relPath) ← (match p.authority with
      | some a => some (some a, p.absPath, none)
      | none =>
        match p.absPath with
        | some ap => some (base.parts.authority, some ap, none)
        | none =>
          match base.parts.absPath with
          | some bp => do
            let b ← splitAbsPath bp
            let segments := normalizeSegments (b.dropLast ++ splitRelPath (p.relPath.getD []))
            return (base.parts.authority, some (47 :: joinWith 47 segments), none)
          | none =>
            let b := splitRelPath (base.parts.relPath.getD [])
            let r := joinWith 47 (normalizeSegments (b.dropLast ++ splitRelPath (p.relPath.getD [])))
            some (base.parts.authority, none, some (if r = [] then [46, 47] else r))
      : Option (Option Str × Option Str × Option Str))
    let text := (match base.scheme with | some s => s ++ [58] | none => []) ++
      (match authority with | some a => [47, 47] ++ a | none => []) ++
      (match absPath with | some a => a | none => (match relPath with | some r => r | none => [])) ++
      queryFragment p.query u.fragment
    fromOctets text

/-- `s.lower()` for ASCII text. -/
def lower (s : Str) : Str := s.map fun c => if isUpper c then c + 32 else c

/-- `relative`, rfc2396.py:1248-1357, with a URI as base; `none`: URIRelativeError or another exception. -/
def URI.relative (u base : URI) : Option URI :=
  let p := u.parts
  let b := base.parts
  if p.opaquePart.isSome then fromOctets u.str
  else
    match u.scheme, base.scheme with
    | none, some _ => none
    | some _, none => fromOctets u.str
    | us, bs =>
      if us.map lower ≠ bs.map lower then fromOctets u.str
      else if p.authority = none ∧ b.authority.isSome then none
      else
        let finish (authority absPath relPath : Option Str) : Option URI :=
          fromOctets ((match authority with | some a => [47, 47] ++ a | none => []) ++
            (match absPath with | some a => a | none => (match relPath with | some r => r | none => [])) ++
            queryFragment p.query u.fragment)
        if p.authority ≠ b.authority then finish p.authority p.absPath p.relPath
        else match p.absPath with
          | none =>
            if b.absPath.isSome then none
            else match p.relPath with
              | none => none
              | some r => match b.relPath with
                | none => finish none none (some r)
                | some br => do finish none none (some (← makeRelPathRel r br))
          | some ap => match b.absPath with
            | none => fromOctets u.str
            | some bp => do finish none none (some (← makeRelPathAbs ap bp))

end Verif.Uri
