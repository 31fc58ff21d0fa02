import Verif.Uri.Uri
import Verif.Uri.EscapeProps
/-!
# Specification of the URI syntax (RFC 2396): components and their text
-/
namespace Verif.Uri

/-- The scheme: a letter followed by letters, digits, '+', '-' and '.'.  The code also accepts an empty scheme. -/
def SchemeOk (s : Str) : Prop := s = [] ∨ ∃ c r, s = c :: r ∧ isAlpha c = true ∧ ∀ x ∈ r, isSchemeChar x = true

/-- The text of the components after the scheme. -/
def Parts.text (p : Parts) : Str :=
  (match p.opaquePart with | some o => o | none => []) ++
  (match p.authority with | some a => [47, 47] ++ a | none => []) ++
  (match p.absPath with | some a => a | none => []) ++
  (match p.relPath with | some r => r | none => []) ++
  (match p.query with | some q => 63 :: q | none => [])

/-- An authority has no '/' or '?'. -/
def AuthorityOk (a : Str) : Prop := 47 ∉ a ∧ 63 ∉ a
/-- An absolute path starts with '/' and has no '?'. -/
def AbsPathOk (p : Str) : Prop := (∃ r, p = 47 :: r) ∧ 63 ∉ p
/-- A relative path does not start with '/' and has no '?'. -/
def RelPathOk (p : Str) : Prop := (¬ ∃ r, p = 47 :: r) ∧ 63 ∉ p

/-- Hierarchical components: an authority or an absolute path or both; without authority the path does not start
with '//'. -/
def Parts.Hierarchical (p : Parts) : Prop :=
  p.opaquePart = none ∧ p.relPath = none ∧ (p.authority.isSome ∨ p.absPath.isSome) ∧
  (∀ a, p.authority = some a → AuthorityOk a) ∧ (∀ a, p.absPath = some a → AbsPathOk a) ∧
  (p.authority = none → ∀ a, p.absPath = some a → ¬ ∃ r, a = 47 :: 47 :: r)

/-- The components allowed after a scheme: nothing, an opaque part (not starting with '/'), or hierarchical. -/
def Parts.AfterScheme (p : Parts) : Prop :=
  p = {} ∨ (∃ c r, c ≠ 47 ∧ p = { opaquePart := some (c :: r) }) ∨ p.Hierarchical

/-- The components allowed without a scheme: hierarchical, or a relative path with perhaps a query. -/
def Parts.Relative (p : Parts) : Prop :=
  p.Hierarchical ∨ ∃ r q, RelPathOk r ∧ p = { relPath := some r, query := q }

/-- The text of a scheme and components. -/
def schemeText (s : Option Str) : Str := match s with | some s => s ++ [58] | none => []

end Verif.Uri
