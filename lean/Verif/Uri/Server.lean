import Verif.Uri.Resolve
import Verif.Text.Decimal
/-!
# Model of `pyslet/rfc2396.py` class `ServerBasedURL`, and C43: `canonicalize`

Objects are the `URI` objects of `Verif.Uri.Uri`; `userinfo`, `host` and `port` are what `split_server` returns
for the authority (rfc2396.py:1470-1472).  `d` is the class's `DEFAULT_PORT`.
-/
namespace Verif.Uri

/-- The port `canonicalize` writes: none for no port, an empty one and the default port, rfc2396.py:1508-1512. -/
def canonPort (d : Option Nat) (port : Option Str) : Option Str :=
  match port with
  | none => none
  | some [] => none
  | some p => if some (Text.decVal p) = d then none else some (Text.decStr (Text.decVal p))

/-- `ServerBasedURL.canonicalize`, rfc2396.py:1489-1523. -/
def canonicalize (d : Option Nat) (u : URI) : Option URI :=
  fromOctets ((match u.scheme with | some s => lower s ++ [58] | none => []) ++
    (match u.parts.authority with
      | some a =>
        let (ui, host, port) := splitServer a
        [47, 47] ++ ((match ui with | some x => x ++ [64] | none => []) ++ lower host ++
          (match canonPort d port with | some p => 58 :: p | none => []))
      | none => []) ++
    (match u.parts.absPath with | some a => a | none => (match u.parts.relPath with | some r => r | none => [])) ++
    queryFragment u.parts.query u.fragment)

/-- `get_addr`, rfc2396.py:1474-1487. -/
def getAddr (d : Option Nat) (a : Str) : Str × Option Nat :=
  let (_, host, port) := splitServer a
  match port with
  | none => (host, d)
  | some [] => (host, d)
  | some p => (host, some (Text.decVal p))

/-! ### Lower case -/

theorem lower_lower (s : Str) : lower (lower s) = lower s := by
  unfold lower
  rw [List.map_map]
  apply List.map_congr_left
  intro c _
  simp only [Function.comp]
  by_cases h : isUpper c = true
  · rw [if_pos h]
    have : isUpper (c + 32) = false := by simp [isUpper] at h ⊢; omega
    simp [this]
  · simp [h]

theorem lower_char {c x : Nat} (h : (if isUpper c then c + 32 else c) = x) (hx : isLower x = false) : c = x := by
  split at h
  · rename_i hu
    exfalso
    rw [← h] at hx
    simp [isUpper, isLower] at hu hx
    omega
  · exact h

theorem mem_lower {s : Str} {x : Nat} (hx : isLower x = false) (h : x ∈ lower s) : x ∈ s := by
  unfold lower at h
  obtain ⟨c, hc, e⟩ := List.mem_map.1 h
  rw [← lower_char e hx]; exact hc

theorem lower_split (s x y : Str) (c : Nat) (hc : isLower c = false) (h : lower s = x ++ c :: y) :
    ∃ x' y', s = x' ++ c :: y' ∧ lower y' = y := by
  unfold lower at h
  obtain ⟨a, b, e1, e2, e3⟩ := List.map_eq_append_iff.1 h
  obtain ⟨d, r, e4, e5, e6⟩ := List.map_eq_cons_iff.1 e3
  exact ⟨a, r, by rw [e1, e4, lower_char e5 hc], e6⟩

theorem lower_clear (h : Str) (hh : HostClear h) : HostClear (lower h) := by
  intro x y e
  obtain ⟨x', y', e1, e2⟩ := lower_split h x y 58 (by decide) e
  have := hh x' y' e1
  rw [← e2]
  cases hd : (lower y').all isDigit with
  | false => rfl
  | true =>
    exfalso
    have : y'.all isDigit = true := by
      rw [List.all_eq_true] at hd ⊢
      intro z hz
      have := hd (if isUpper z then z + 32 else z) (List.mem_map.2 ⟨z, hz, rfl⟩)
      split at this
      · rename_i hu; simp [isUpper, isDigit] at hu this; omega
      · exact this
    simp_all

theorem lower_scheme (s : Str) (h : SchemeOk s) : SchemeOk (lower s) := by
  have h1 : ∀ c, isAlpha c = true → isAlpha (if isUpper c then c + 32 else c) = true := by
    intro c hc
    split
    · rename_i hu; simp [isUpper, isAlpha, isLower] at hu ⊢; omega
    · exact hc
  have h2 : ∀ c, isSchemeChar c = true → isSchemeChar (if isUpper c then c + 32 else c) = true := by
    intro c hc
    split
    · rename_i hu; simp [isUpper, isSchemeChar, isAlnum, isLower, isDigit] at hu ⊢; omega
    · exact hc
  rcases h with rfl | ⟨c, r, rfl, hc, hr⟩
  · exact .inl rfl
  · refine .inr ⟨_, lower r, rfl, h1 c hc, ?_⟩
    intro x hx
    obtain ⟨d, hd, rfl⟩ := List.mem_map.1 hx
    exact h2 d (hr d hd)

theorem uric_lower (s : Str) (h : Uric isAllowed s) : Uric isAllowed (lower s) := by
  obtain ⟨is, h1, rfl⟩ := h
  let f : Item → Item := fun i => match i with
    | .lit c => .lit (if isUpper c then c + 32 else c)
    | .esc a b => .esc (if isUpper a then a + 32 else a) (if isUpper b then b + 32 else b)
  refine ⟨is.map f, ?_, ?_⟩
  · intro j hj
    obtain ⟨i, hi, rfl⟩ := List.mem_map.1 hj
    have := h1 i hi
    cases i with
    | lit c =>
      obtain ⟨k1, k2⟩ := this
      obtain ⟨k3, -⟩ := isAllowed_ascii c k1
      have : ∀ c, c < 128 → isAllowed c = true → c ≠ 37 → (Item.lit (if isUpper c then c + 32 else c)).Ok isAllowed := by decide
      exact this c k3 k1 k2
    | esc a b =>
      obtain ⟨k1, k2⟩ := this
      have : ∀ c, c < 128 → isHex c = true → isHex (if isUpper c then c + 32 else c) = true := by decide
      exact ⟨this a (isHex_lt k1) k1, this b (isHex_lt k2) k2⟩
  · unfold textOf lower
    rw [List.flatMap_map, List.map_flatMap]
    congr 1
    funext i
    cases i <;> rfl

/-! ### Authorities -/

theorem digit_same (c : Nat) : Text.isDigit c = isDigit c := rfl

theorem canonPort_digits (d : Option Nat) (p : Option Str) (x : Str) (h : canonPort d p = some x) :
    ∃ n, x = Text.decStr n ∧ some n ≠ d ∧ ∀ c ∈ x, isDigit c = true := by
  unfold canonPort at h
  split at h
  · cases h
  · cases h
  · split at h
    · cases h
    · rename_i hd
      cases h
      exact ⟨_, rfl, hd, fun c hc => by rw [← digit_same]; exact Text.decStr_isDigit _ c hc⟩

theorem canonPort_canonPort (d : Option Nat) (p : Option Str) : canonPort d (canonPort d p) = canonPort d p := by
  cases h : canonPort d p with
  | none => rfl
  | some x =>
    obtain ⟨n, rfl, hd, -⟩ := canonPort_digits d p x h
    cases hx : Text.decStr n with
    | nil => exact absurd hx (Text.decStr_ne_nil n)
    | cons c r =>
      simp only [canonPort]
      rw [← hx, Text.decVal_decStr, if_neg hd]

/-- The authority `canonicalize` writes. -/
def canonAuth (d : Option Nat) (a : Str) : Str :=
  serverText (splitServer a).1 (lower (splitServer a).2.1) (canonPort d (splitServer a).2.2)

theorem mem_serverText (u : Option Str) (h : Str) (p : Option Str) (x : Nat) :
    x ∈ serverText u h p ↔ (∃ y, u = some y ∧ (x ∈ y ∨ x = 64)) ∨ x ∈ h ∨ (∃ y, p = some y ∧ (x = 58 ∨ x ∈ y)) := by
  cases u <;> cases p <;> simp [serverText, or_assoc]

/-- The canonical authority splits into the same userinfo, the lower case host and the canonical port. -/
theorem canonAuth_split (d : Option Nat) (a : Str) (hclear : HostClear (splitServer a).2.1) (h64 : 64 ∉ (splitServer a).2.1) :
    splitServer (canonAuth d a) = ((splitServer a).1, lower (splitServer a).2.1, canonPort d (splitServer a).2.2) := by
  obtain ⟨-, -, h3, -⟩ := C23_split_server a
  refine C23_parts _ _ _ h3 (fun h => h64 (mem_lower (by decide) h)) (fun _ => lower_clear _ hclear) ?_
  intro x hx
  obtain ⟨n, -, -, h⟩ := canonPort_digits d _ x hx
  exact h

theorem uric_server (u : Option Str) (h : Str) (p : Option Str) (H : Uric isAllowed (serverText u h p)) :
    (∀ x, u = some x → Uric isAllowed x) ∧ Uric isAllowed h := by
  have hp : ∀ (p : Option Str) x, Uric isAllowed (x ++ (match p with | none => [] | some p => 58 :: p)) → Uric isAllowed x := by
    intro p x hx
    cases p with
    | none => simpa using hx
    | some p => exact (Uric.split 58 (by decide) (by decide) _ _ hx).1
  cases u with
  | none => exact ⟨by simp, hp p h H⟩
  | some u =>
    have H := hp p _ H
    have e : (match some u with | none => [] | some u => u ++ [64]) ++ h = u ++ 64 :: h := by simp
    rw [e] at H
    obtain ⟨k1, k2, -⟩ := Uric.split 64 (by decide) (by decide) _ _ H
    exact ⟨by simpa using k1, k2⟩

theorem uric_serverText (u : Option Str) (h : Str) (p : Option Str) (hu : ∀ x, u = some x → Uric isAllowed x)
    (hh : Uric isAllowed h) (hp : ∀ x, p = some x → ∀ c ∈ x, isDigit c = true) : Uric isAllowed (serverText u h p) := by
  have hdig : ∀ x : Str, (∀ c ∈ x, isDigit c = true) → Uric isAllowed x := by
    intro x
    induction x with
    | nil => intro _; exact .nil _
    | cons c r ih =>
      intro hx
      have hc := hx c (by simp)
      have hlt : c < 128 := by simp [isDigit] at hc; omega
      have : ∀ c, c < 128 → isDigit c = true → (Item.lit c).Ok isAllowed := by decide
      exact .cons (this c hlt hc) (ih (fun d hd => hx d (by simp [hd])))
  unfold serverText
  refine Uric.append (Uric.append ?_ hh) ?_
  · cases u with
    | none => exact .nil _
    | some x => exact (hu x rfl).append (.cons (by simp [Item.Ok]; decide) (.nil _))
  · cases p with
    | none => exact .nil _
    | some x => exact .cons colon_ok (hdig x (hp x rfl))

theorem canonAuth_ok (d : Option Nat) (a : Str) (h : AuthorityOk a) (hu : Uric isAllowed a) :
    AuthorityOk (canonAuth d a) ∧ Uric isAllowed (canonAuth d a) := by
  obtain ⟨h1, -, -, -⟩ := C23_split_server a
  have hno : ∀ c, c ≠ 64 → c ≠ 58 → isLower c = false → isDigit c = false → c ∉ a → c ∉ canonAuth d a := by
    intro c c1 c2 c3 c4 hc hm
    apply hc
    rw [← h1, mem_serverText]
    rcases (mem_serverText _ _ _ c).1 hm with ⟨y, e, h | h⟩ | h | ⟨y, e, h | h⟩
    · exact .inl ⟨y, e, .inl h⟩
    · exact absurd h c1
    · exact .inr (.inl (mem_lower c3 h))
    · exact absurd h c2
    · obtain ⟨n, -, -, k⟩ := canonPort_digits d _ y e
      have := k c h
      rw [c4] at this; cases this
  refine ⟨⟨hno 47 (by decide) (by decide) (by decide) (by decide) h.1, hno 63 (by decide) (by decide) (by decide) (by decide) h.2⟩, ?_⟩
  rw [← h1] at hu
  obtain ⟨k1, k2⟩ := uric_server _ _ _ hu
  refine uric_serverText _ _ _ k1 (uric_lower _ k2) ?_
  intro x hx
  obtain ⟨n, -, -, k⟩ := canonPort_digits d _ x hx
  exact k

/-- The canonical components. -/
def canonParts (d : Option Nat) (p : Parts) : Parts := { p with authority := p.authority.map (canonAuth d) }

theorem canonicalize_eq (d : Option Nat) (u : URI) (hop : u.parts.opaquePart = none)
    (hrel : u.parts.absPath.isSome → u.parts.relPath = none) :
    canonicalize d u = URI.init (schemeText (u.scheme.map lower) ++ (canonParts d u.parts).text ++ fragText u.fragment) := by
  unfold canonicalize fromOctets canonParts Parts.text
  rw [hop]
  simp only [queryFragment_eq, List.nil_append]
  congr 1
  have e1 : (match u.scheme with | some s => lower s ++ [58] | none => []) = schemeText (u.scheme.map lower) := by
    cases u.scheme <;> rfl
  rw [e1]
  have e2 : ∀ a, ([47, 47] : Str) ++ ((match (splitServer a).1 with | some x => x ++ [64] | none => []) ++ lower (splitServer a).2.1 ++
          (match canonPort d (splitServer a).2.2 with | some p => 58 :: p | none => [])) = [47, 47] ++ canonAuth d a := by
    intro a
    unfold canonAuth serverText
    cases (splitServer a).1 <;> cases canonPort d (splitServer a).2.2 <;> simp
  cases ha : u.parts.authority with
  | none =>
    cases hp : u.parts.absPath with
    | none => cases u.parts.query <;> cases u.parts.relPath <;> simp [queryText]
    | some ap => rw [hrel (by rw [hp]; rfl)]; cases u.parts.query <;> simp [queryText]
  | some a =>
    simp only [Option.map_some]
    rw [e2 a]
    cases hp : u.parts.absPath with
    | none => cases u.parts.query <;> cases u.parts.relPath <;> simp [queryText]
    | some ap => rw [hrel (by rw [hp]; rfl)]; cases u.parts.query <;> simp [queryText]

/-- C43: `canonicalize` of a URL with a scheme whose host does not look like host and port: the scheme and host are
in lower case, an empty or default port is dropped and any other one is written without leading zeros; userinfo, path,
query and fragment are the same.  Canonicalizing again changes nothing. -/
theorem C43_canonicalize (s : Str) (u : URI) (hu : URI.init s = some u) (sch : Str) (hs : u.scheme = some sch)
    (hop : u.parts.opaquePart = none) (d : Option Nat)
    (hhost : ∀ a, u.parts.authority = some a → 64 ∉ (splitServer a).2.1 ∧ HostClear (splitServer a).2.1) :
    ∃ v, canonicalize d u = some v ∧ v.scheme = some (lower sch) ∧ v.fragment = u.fragment ∧
      v.parts.absPath = u.parts.absPath ∧ v.parts.query = u.parts.query ∧
      (u.parts.authority = none → v.parts.authority = none) ∧
      (∀ a, u.parts.authority = some a → ∃ b, v.parts.authority = some b ∧
        splitServer b = ((splitServer a).1, lower (splitServer a).2.1, canonPort d (splitServer a).2.2)) ∧
      canonicalize d v = some v := by
  obtain ⟨-, hfit, hch, hf, eu⟩ := init_valid s u hu
  have hafter := (hfit.1 sch hs).2
  have hcases : u.parts = {} ∨ u.parts.Hierarchical := by
    rcases hafter with h | ⟨c, r, -, h⟩ | h
    · exact .inl h
    · rw [h] at hop; cases hop
    · exact .inr h
  have hrel : u.parts.relPath = none := by
    rcases hcases with h | h
    · rw [h]
    · exact h.2.1
  have hcanon : (canonParts d u.parts).AfterScheme ∧ (canonParts d u.parts).Chars := by
    constructor
    · rcases hcases with h | h
      · left; rw [h]; rfl
      · right; right
        refine ⟨h.1, h.2.1, ?_, ?_, h.2.2.2.2.1, ?_⟩
        · simpa [canonParts] using h.2.2.1
        · intro a ha
          simp only [canonParts, Option.map_eq_some_iff] at ha
          obtain ⟨x, hx, rfl⟩ := ha
          exact (canonAuth_ok d x (h.2.2.2.1 x hx) (hch.authority x hx)).1
        · intro hn
          simp only [canonParts, Option.map_eq_none_iff] at hn
          exact h.2.2.2.2.2 hn
    · refine ⟨hch.opaquePart, ?_, hch.absPath, hch.relPath, hch.query⟩
      intro a ha
      simp only [canonParts, Option.map_eq_some_iff] at ha
      obtain ⟨x, hx, rfl⟩ := ha
      have hh : u.parts.Hierarchical := by
        rcases hcases with h | h
        · rw [h] at hx; cases hx
        · exact h
      exact (canonAuth_ok d x (hh.2.2.2.1 x hx) (hch.authority x hx)).2
  have hfits : Fits (some (lower sch)) (canonParts d u.parts) := by
    refine ⟨?_, by simp⟩
    intro x hx; cases hx
    exact ⟨lower_scheme sch (hfit.scheme sch hs), hcanon.1⟩
  have hinit := init_ofParts (some (lower sch)) (canonParts d u.parts) u.fragment hfits hcanon.2 hf
  refine ⟨ofParts (some (lower sch)) (canonParts d u.parts) u.fragment, ?_, rfl, rfl, rfl, rfl, ?_, ?_, ?_⟩
  · rw [canonicalize_eq d u hop (fun _ => hrel), hs, Option.map_some, hinit]
  · intro hn; simp [ofParts, canonParts, hn]
  · intro a ha
    refine ⟨canonAuth d a, by simp [ofParts, canonParts, ha], canonAuth_split d a (hhost a ha).2 (hhost a ha).1⟩
  · rw [canonicalize_eq _ _ (by simpa [ofParts, canonParts] using hop) (fun _ => by simpa [ofParts, canonParts] using hrel)]
    have e1 : canonParts d (canonParts d u.parts) = canonParts d u.parts := by
      cases ha : u.parts.authority with
      | none => simp [canonParts, ha]
      | some a =>
        simp only [canonParts, ha, Option.map_some]
        congr 2
        have := canonAuth_split d a (hhost a ha).2 (hhost a ha).1
        have e : ∀ x, canonAuth d x = serverText (splitServer x).1 (lower (splitServer x).2.1) (canonPort d (splitServer x).2.2) :=
          fun _ => rfl
        rw [e (canonAuth d a), this]
        dsimp only
        rw [canonPort_canonPort, lower_lower]
        rfl
    show URI.init (schemeText (Option.map lower (some (lower sch))) ++ (canonParts d (canonParts d u.parts)).text ++ fragText u.fragment) = _
    rw [e1, Option.map_some, lower_lower, hinit]

/-- C43: canonicalization keeps the address: same port number and the same host up to case. -/
theorem C43_addr (d : Option Nat) (a : Str) (h64 : 64 ∉ (splitServer a).2.1) (hclear : HostClear (splitServer a).2.1) :
    getAddr d (canonAuth d a) = (lower (getAddr d a).1, (getAddr d a).2) := by
  unfold getAddr
  rw [canonAuth_split d a hclear h64]
  cases hs : splitServer a with
  | mk ui hp =>
    rcases hp with ⟨host, port⟩
    dsimp only
    rcases port with - | ⟨- | ⟨c, r⟩⟩
    · rfl
    · rfl
    · simp only [canonPort]
      by_cases h : some (Text.decVal (c :: r)) = d
      · rw [if_pos h]; dsimp only; rw [← h]
      · rw [if_neg h]
        have hv := Text.decVal_decStr (Text.decVal (c :: r))
        cases hx : Text.decStr (Text.decVal (c :: r)) with
        | nil => exact absurd hx (Text.decStr_ne_nil _)
        | cons x y => dsimp only; rw [hx] at hv; rw [hv]

/-- "HTTP://u@Host:080/x" with default port 80. -/
example : ((URI.init (codes "HTTP://u@Host:080/x")).bind (canonicalize (some 80))).map URI.str = some (codes "http://u@host/x") := by
  decide +kernel
/-- An IPv6 host is clear. -/
example : HostClear (codes "[::1]") := by
  intro x y e
  have : y.getLast? = some 93 := by
    have h := congrArg List.getLast? e
    rw [List.getLast?_append, List.getLast?_cons] at h
    have h2 : (codes "[::1]").getLast? = some 93 := by decide
    rw [h2] at h
    cases hy : y.getLast? with
    | none => rw [hy] at h; simp at h
    | some z => rw [hy] at h; simp at h; rw [← h]
  have hm := List.mem_of_getLast? this
  cases hd : y.all isDigit with
  | false => rfl
  | true => exact absurd (List.all_eq_true.1 hd 93 hm) (by decide)

/-- C43 fails for hosts that look like host and port, and for opaque parts, which are lost: "http://h::/" is
canonicalized to "http://h:/" and that to "http://h/"; "http:foo" becomes "http:". -/
theorem C43_violations :
    ((URI.init (codes "http://h::/")).bind (canonicalize (some 80))).map URI.str = some (codes "http://h:/") ∧
    ((URI.init (codes "http://h:/")).bind (canonicalize (some 80))).map URI.str = some (codes "http://h/") ∧
    ((URI.init (codes "http:foo")).bind (canonicalize (some 80))).map URI.str = some (codes "http:") := by decide +kernel

end Verif.Uri
