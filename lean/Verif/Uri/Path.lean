import Verif.Uri.Escape
/-!
# Model of `pyslet/rfc2396.py`: paths and authorities

A path segment is a text; segments are compared with '.' (46) and '..'.
-/
namespace Verif.Uri

/-- "." -/
def dot : Str := [46]
/-- ".." -/
def dotdot : Str := [46, 46]

/-- `s.split(sep)` for a one character separator. -/
def splitOn (sep : Nat) : Str → List Str
  | [] => [[]]
  | c :: r =>
    if c = sep then [] :: splitOn sep r
    else match splitOn sep r with
      | [] => [[c]]              -- does not happen
      | w :: ws => (c :: w) :: ws

/-- `sep.join(segments)` for a one character separator. -/
def joinWith (sep : Nat) : List Str → Str
  | [] => []
  | [w] => w
  | w :: ws => w ++ sep :: joinWith sep ws

/-- `split_path(path, abs_path=True)` = `split_abs_path`, rfc2396.py:447-480; `none`: ValueError. -/
def splitAbsPath (path : Str) : Option (List Str) :=
  match path with
  | [] => some []
  | c :: _ => if c = 47 then some (splitOn 47 path).tail else none

/-- `split_rel_path`, rfc2396.py:488-494. -/
def splitRelPath (path : Str) : List Str :=
  match path with
  | [] => [[]]
  | _ => splitOn 47 path

/-- The loop of `normalize_segments`, rfc2396.py:508-525, with its index. -/
def normalizeLoop (i : Nat) (segs : List Str) : List Str :=
  if h : i < segs.length then
    if hdot : segs[i]? = some dot then
      if i + 1 ≥ segs.length then normalizeLoop i (segs.set i [])
      else normalizeLoop i (segs.eraseIdx i)
    else if hd : segs[i]? = some dotdot ∧ i > 0 ∧ segs[i - 1]? ≠ some dotdot then
      if i + 1 ≥ segs.length then normalizeLoop i ((segs.set i []).eraseIdx (i - 1))
      else normalizeLoop (i - 1) ((segs.eraseIdx i).eraseIdx (i - 1))
    else normalizeLoop (i + 1) segs
  else segs
termination_by 4 * segs.length - 2 * i + (if segs[i]? = some dot then 1 else 0)
decreasing_by
  · rw [if_pos hdot, if_neg (by simp [h, dot]), List.length_set]; omega
  · rw [if_pos hdot, List.length_eraseIdx_of_lt h]
    split <;> omega
  · have hp := hd.2.1
    rw [List.length_eraseIdx_of_lt (by simp; omega), List.length_set]
    split <;> omega
  · have hp := hd.2.1
    rw [List.length_eraseIdx_of_lt (by rw [List.length_eraseIdx_of_lt h]; omega), List.length_eraseIdx_of_lt h]
    split <;> omega
  · rw [if_neg hdot]
    split <;> omega

/-- `normalize_segments`, rfc2396.py:498-528: the list after the call. -/
def normalizeSegments (segs : List Str) : List Str :=
  let r := normalizeLoop 0 segs
  if r.getLast? = some dotdot then r ++ [[]] else r

/-- The loop of `_relativize_segments`, rfc2396.py:534-541. -/
def relativizeLoop (path base : List Str) (pos : Nat) (result : List Str) : List Str :=
  if pos < base.length then
    if result ≠ [] then relativizeLoop path base (pos + 1) (dotdot :: result)
    else if pos ≥ path.length ∨ base[pos]? ≠ path[pos]? then
      relativizeLoop path base (pos + 1) (result ++ path.drop pos)
    else relativizeLoop path base (pos + 1) result
  else result
termination_by base.length - pos

/-- `_relativize_segments`, rfc2396.py:531-548 (`path_segments[len(base)-1:]` for a non-empty base; with an
empty base the index is -1, the last segment only). -/
def relativizeSegments (path base : List Str) : List Str :=
  let result := relativizeLoop path base 0 []
  if result = [] ∧ path.length > base.length then
    if base.length = 0 then path.drop (path.length - 1) else path.drop (base.length - 1)
  else if result = [[]] then dot :: result
  else result

/-- `_make_rel_path_abs`, rfc2396.py:551-558. -/
def makeRelPathAbs (absPath basePath : Str) : Option Str := do
  let path ← splitAbsPath absPath
  let base ← splitAbsPath basePath
  return joinWith 47 (relativizeSegments (normalizeSegments path) (normalizeSegments base))

/-- The length of the leading run of '..'. -/
def leadingUps (segs : List Str) : Nat := (segs.takeWhile (· == dotdot)).length

/-- `_make_rel_path_rel`, rfc2396.py:561-592; `none`: URIRelativeError. -/
def makeRelPathRel (relPath baseRelPath : Str) : Option Str :=
  let path := normalizeSegments (splitRelPath relPath)
  let base := normalizeSegments (splitRelPath baseRelPath)
  let i := leadingUps path
  let j := leadingUps base
  if j > i then none
  else
    let (path, base) :=
      if i ≠ 0 then
        (normalizeSegments (List.replicate i [120] ++ path), normalizeSegments (List.replicate i [120] ++ base))
      else (path, base)
    some (joinWith 47 (relativizeSegments path base))

/-- `authority.find(c)` -/
def findIdx (c : Nat) (s : Str) : Option Nat := s.findIdx? (· == c)

/-- `authority.rfind(c)` -/
def rfindIdx (c : Nat) (s : Str) : Option Nat :=
  (s.reverse.findIdx? (· == c)).map fun i => s.length - 1 - i

/-- `split_server`, rfc2396.py:391-440, for an authority that is not None: userinfo, host, port. -/
def splitServer (authority : Str) : Option Str × Str × Option Str :=
  let ulen : Int := match findIdx 64 authority with | some i => i | none => -1
  let userinfo := if ulen < 0 then none else some (authority.take ulen.toNat)
  let hstart := if ulen < 0 then 0 else ulen.toNat + 1
  let plen : Int := match rfindIdx 58 authority with | some i => i | none => -1
  let plen := if plen < ulen then -1 else plen
  let port := authority.drop (plen.toNat + 1)
  let plen := if plen > -1 ∧ ¬ (port.all isDigit = true) then -1 else plen
  if plen > -1 then (userinfo, (authority.take plen.toNat).drop hstart, some port)
  else (userinfo, authority.drop hstart, none)

end Verif.Uri
