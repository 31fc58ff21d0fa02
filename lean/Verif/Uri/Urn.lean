import Verif.Uri.Server
import Verif.Text.Utf8
/-!
# Model of `pyslet/urn.py`, and C24, C44

Text is a list of code points.
-/
namespace Verif.Uri
open Text (Scalar encodeChar utf8Decode)

/-- `is_reserved` of urn.py, the characters "%/?#", urn.py:26-27. -/
def urnReserved (c : Nat) : Bool := [37, 47, 63, 35].contains c
/-- `is_other`, the characters "()+,-.:=@;$_!*'", urn.py:29-30. -/
def urnOther (c : Nat) : Bool := [40, 41, 43, 44, 45, 46, 58, 61, 64, 59, 36, 95, 33, 42, 39].contains c
/-- `is_trans`, urn.py:32-33. -/
def isTrans (c : Nat) : Bool := isAlnum c || urnOther c || urnReserved c
/-- `is_letnumhyp`, urn.py:23-24. -/
def isLetNumHyp (c : Nat) : Bool := isAlnum c || c == 45

/-- `translate_to_urnchar` on text, urn.py:38-71; `none`: ValueError for a zero character, UnicodeEncodeError for
a surrogate. -/
def translateTo (reservedTest : Nat → Bool) : Str → Option Str
  | [] => some []
  | c :: r => do
    let t ← if reservedTest c || urnReserved c || !isTrans c then
        if c ≠ 0 then if Scalar c then some ((encodeChar c).flatMap percent) else none
        else none
      else some [c]
    return t ++ (← translateTo reservedTest r)

/-- The loop of `translate_from_urnchar`, urn.py:86-100, on ASCII text (elsewhere `int()` also accepts non-ASCII
digits). -/
def fromUrnLoop (s : Str) : Option (List Nat) :=
  match s with
  | [] => some []
  | c :: r =>
    if c = 37 then do
      let n ← pyInt16 (r.take 2)
      if n = 0 then none else return n :: (← fromUrnLoop (r.drop 2))
    else if isTrans c then
      if c = 0 then none else do return c :: (← fromUrnLoop r)
    else none
termination_by s.length
decreasing_by all_goals simp <;> omega

/-- `translate_from_urnchar`, urn.py:74-101. -/
def translateFrom (s : Str) : Option Str := do utf8Decode (← fromUrnLoop s)

/-- `parse_urn`, urn.py:104-124. -/
def parseUrn (s : Str) : Str := s.takeWhile isTrans

/-- The `mode` variable of `URN.parse_scheme_specific_part`, with the NID found and `cpos`. -/
inductive UrnMode | nid0 | nid | nss (nid : Str) (cpos : Nat)

/-- The loop of `URN.parse_scheme_specific_part`, urn.py:173-210, on `opaque_part[pos:]`. -/
def urnLoop (o : Str) : UrnMode → Nat → Str → Option (Str × Str)
  | .nid0, _, [] => none
  | .nid0, pos, c :: r => if isAlnum c then urnLoop o .nid (pos + 1) r else none
  | .nid, _, [] => none
  | .nid, pos, c :: r =>
    if isLetNumHyp c then if pos > 31 then none else urnLoop o .nid (pos + 1) r
    else if c = 58 then urnLoop o (.nss (o.take pos) (pos + 1)) (pos + 1) r
    else none
  | .nss n cpos, _, [] => some (n, o.drop cpos)
  | .nss n cpos, pos, c :: r => if isTrans c then urnLoop o (.nss n cpos) (pos + 1) r else none

/-- "urn" -/
def urnText : Str := [117, 114, 110]

/-- `URN.parse_scheme_specific_part`, urn.py:167-212: the NID and NSS; `none`: URIException. -/
def urnParse (o : Str) : Option (Str × Str) :=
  match urnLoop o .nid0 0 o with
  | none => none
  | some (nid, nss) => if lower nid = urnText then none else some (nid, nss)

/-- `URN(octets)`, urn.py:154-165, for text with a scheme; an opaque part None raises TypeError. -/
def urnInit (s : Str) : Option (URI × Str × Str) := do
  let u ← URI.init s
  let _ ← u.scheme
  let o ← u.parts.opaquePart
  let (nid, nss) ← urnParse o
  return (u, nid, nss)

/-- `URN.canonicalize`, urn.py:214-217: the text given to `from_octets`. -/
def urnCanonicalText (scheme nid nss : Str) : Option Str := do
  let d ← canonicalizeData nss (fun _ => false)
  return lower scheme ++ 58 :: (lower nid ++ 58 :: d)

/-! ### C24 -/

/-- Characters that stand for themselves: URN characters other than the reserved ones. -/
def plainUrn (reservedTest : Nat → Bool) (c : Nat) : Bool := isTrans c && !urnReserved c && !reservedTest c

theorem isTrans_lt {c : Nat} (h : isTrans c = true) : c < 128 := by
  rcases Nat.lt_or_ge c 128 with hc | hc
  · exact hc
  · exfalso
    simp [isTrans, isAlnum, isUpper, isLower, isDigit, urnOther, urnReserved] at h
    omega

theorem fromUrn_textOf (p : Nat → Bool) (hp : ∀ c, p c = true → isTrans c = true) (is : List Item) (h : ∀ i ∈ is, i.Ok p)
    (hz : ∀ i ∈ is, i.octet ≠ 0) : fromUrnLoop (textOf is) = some (octetsOf is) := by
  induction is with
  | nil => simp [textOf, octetsOf, fromUrnLoop]
  | cons i is ih =>
    have hi := h i (by simp)
    have hzi := hz i (by simp)
    have ih := ih (fun j hj => h j (by simp [hj])) (fun j hj => hz j (by simp [hj]))
    have e : textOf (i :: is) = i.text ++ textOf is := by simp [textOf]
    have e2 : octetsOf (i :: is) = i.octet :: octetsOf is := by simp [octetsOf]
    rw [e, e2]
    cases i with
    | lit c =>
      simp only [Item.text, List.singleton_append, Item.octet] at hzi ⊢
      rw [fromUrnLoop, if_neg hi.2, if_pos (hp c hi.1), if_neg hzi, ih]
      rfl
    | esc a b =>
      simp only [Item.octet] at hzi
      simp only [Item.text, List.cons_append, List.nil_append, Item.octet]
      rw [fromUrnLoop, if_pos rfl]
      have e3 : pyInt16 ((a :: b :: textOf is).take 2) = some (16 * hexVal a + hexVal b) := by
        simp [pyInt16, hi.1, hi.2]
      rw [e3]
      dsimp only [bind, Option.bind]
      rw [if_neg hzi]
      simp only [List.drop_succ_cons, List.drop_zero, ih]
      rfl

/-- The items of an encoded character. -/
theorem percent_items (p : Nat → Bool) (bs : List Nat) (h : ∀ b ∈ bs, b < 256) :
    ∃ is : List Item, (∀ i ∈ is, i.Ok p) ∧ textOf is = bs.flatMap percent ∧ octetsOf is = bs := by
  refine ⟨bs.map fun n => .esc (hexDigit (n / 16)) (hexDigit (n % 16)), ?_, ?_, ?_⟩
  · intro i hi
    obtain ⟨n, hn, rfl⟩ := List.mem_map.1 hi
    exact percent_ok p (h n hn)
  · simp only [textOf, List.flatMap_map]
    rfl
  · simp only [octetsOf, List.map_map]
    conv => rhs; rw [← List.map_id bs]
    apply List.map_congr_left
    intro n hn
    exact percent_octet (h n hn)

theorem translateTo_items (rt : Nat → Bool) (s : Str) (hs : ∀ c ∈ s, Scalar c ∧ c ≠ 0) :
    ∃ is : List Item, (∀ i ∈ is, i.Ok (plainUrn rt)) ∧ translateTo rt s = some (textOf is) ∧
      octetsOf is = s.flatMap encodeChar := by
  induction s with
  | nil => exact ⟨[], by simp, rfl, rfl⟩
  | cons c s ih =>
    obtain ⟨is, h1, h2, h3⟩ := ih (fun x hx => hs x (by simp [hx]))
    obtain ⟨hsc, hc0⟩ := hs c (by simp)
    by_cases hc : (rt c || urnReserved c || !isTrans c) = true
    · obtain ⟨js, k1, k2, k3⟩ := percent_items (plainUrn rt) (encodeChar c) (Text.encodeChar_bytes c hsc)
      refine ⟨js ++ is, ?_, ?_, ?_⟩
      · intro i hi
        rcases List.mem_append.1 hi with hi | hi
        · exact k1 i hi
        · exact h1 i hi
      · rw [translateTo, if_pos hc, if_pos hc0, if_pos hsc, h2]
        simp [textOf, ← k2]
      · simp only [octetsOf, List.map_append, List.flatMap_cons] at h3 k3 ⊢
        rw [h3, k3]
    · have hc' : (rt c || urnReserved c || !isTrans c) = false := by simpa using hc
      have h4 : plainUrn rt c = true := by
        simp only [Bool.or_eq_false_iff, Bool.not_eq_false'] at hc'
        simp [plainUrn, hc'.1.1, hc'.1.2, hc'.2]
      have h5 : isTrans c = true := by simp [plainUrn] at h4; exact h4.1.1
      have h6 : urnReserved c = false := by simp [plainUrn] at h4; exact h4.1.2
      refine ⟨.lit c :: is, ?_, ?_, ?_⟩
      · intro i hi
        rcases List.mem_cons.1 hi with rfl | hi
        · refine ⟨h4, ?_⟩
          rintro rfl
          exact absurd h6 (by decide)
        · exact h1 i hi
      · rw [translateTo, if_neg hc, h2]
        simp [textOf, Item.text]
      · have : encodeChar c = [c] := by unfold encodeChar; rw [if_pos (isTrans_lt h5)]
        simp only [octetsOf, List.map_cons, List.flatMap_cons, this, Item.octet] at h3 ⊢
        rw [h3]; rfl

/-- C24: every text of non-zero Unicode scalar values survives encoding to URN characters and back, for every
additional reserved test; the encoded form is a sequence of unreserved URN characters and `%XX` escapes. -/
theorem C24_round_trip (rt : Nat → Bool) (s : Str) (hs : ∀ c ∈ s, Scalar c ∧ c ≠ 0) :
    ∃ t, translateTo rt s = some t ∧ translateFrom t = some s ∧ (∀ c ∈ t, isTrans c = true) ∧
      Uric (fun c => isTrans c && !urnReserved c && !rt c) t := by
  obtain ⟨is, h1, h2, h3⟩ := translateTo_items rt s hs
  have hz : ∀ i ∈ is, i.octet ≠ 0 := by
    intro i hi h0
    have : (0 : Nat) ∈ octetsOf is := by rw [← h0]; exact List.mem_map.2 ⟨i, hi, rfl⟩
    rw [h3] at this
    obtain ⟨c, hc, hm⟩ := List.mem_flatMap.1 this
    exact (hs c hc).2 (Text.encodeChar_zero c hm)
  have hp : ∀ c, plainUrn rt c = true → isTrans c = true := by
    intro c hc; simp [plainUrn] at hc; exact hc.1.1
  refine ⟨textOf is, h2, ?_, ?_, is, h1, rfl⟩
  · unfold translateFrom
    rw [fromUrn_textOf (plainUrn rt) hp is h1 hz, h3]
    exact Text.utf8Decode_flatMap s (fun c hc => (hs c hc).1)
  · intro c hc
    unfold textOf at hc
    obtain ⟨i, hi, hm⟩ := List.mem_flatMap.1 hc
    have hhex : ∀ x, isHex x = true → isTrans x = true := by
      intro x hx
      have : ∀ x, x < 128 → isHex x = true → isTrans x = true := by decide
      exact this x (isHex_lt hx) hx
    cases i with
    | lit d => simp [Item.text] at hm; subst hm; exact hp c (h1 _ hi).1
    | esc a b =>
      simp [Item.text] at hm
      rcases hm with rfl | rfl | rfl
      · decide
      · exact hhex _ (h1 _ hi).1
      · exact hhex _ (h1 _ hi).2

/-- C24: a zero character cannot be encoded. -/
theorem C24_zero (rt : Nat → Bool) (x y : Str) : translateTo rt (x ++ 0 :: y) = none := by
  induction x with
  | nil =>
    rw [List.nil_append, translateTo]
    have : (rt 0 || urnReserved 0 || !isTrans 0) = true := by
      have : isTrans 0 = false := by decide
      simp [this]
    rw [if_pos this]; rfl
  | cons c x ih =>
    rw [List.cons_append, translateTo, ih]
    split
    · split
      · split <;> rfl
      · rfl
    · rfl

/-- "a/é b" -/
example : translateTo (fun _ => false) [97, 47, 233, 32, 98] = some (codes "a%2F%C3%A9%20b") := by decide +kernel
example : translateFrom (codes "a%2F%C3%A9%20b") = some [97, 47, 233, 32, 98] := by decide +kernel

/-! ### C44 -/

/-- A namespace identifier: a letter or digit, then letters, digits and hyphens, at most 32 in all. -/
def NidOk (nid : Str) : Prop :=
  nid.length ≤ 32 ∧ ∃ c r, nid = c :: r ∧ isAlnum c = true ∧ ∀ x ∈ r, isLetNumHyp x = true

theorem urnLoop_nss (o n : Str) (cpos pos : Nat) (rest : Str) :
    urnLoop o (.nss n cpos) pos rest = if rest.all isTrans then some (n, o.drop cpos) else none := by
  induction rest generalizing pos with
  | nil => simp [urnLoop]
  | cons c r ih =>
    rw [urnLoop, ih]
    by_cases h : isTrans c = true
    · simp [h]
    · simp [h]

theorem urnLoop_nid (o pre mid rest : Str) (ho : o = pre ++ mid ++ 58 :: rest) (hm : ∀ x ∈ mid, isLetNumHyp x = true) :
    urnLoop o .nid pre.length (mid ++ 58 :: rest) =
      if (pre ++ mid).length ≤ 32 ∨ mid = [] then
        if rest.all isTrans then some (pre ++ mid, rest) else none
      else none := by
  induction mid generalizing pre with
  | nil =>
    rw [List.nil_append, urnLoop, if_neg (by decide), if_pos rfl, urnLoop_nss]
    subst ho
    simp only [List.append_nil, or_true, if_true]
    rw [show (pre ++ 58 :: rest).take pre.length = pre by simp, show (pre ++ 58 :: rest).drop (pre.length + 1) = rest by simp]
  | cons c r ih =>
    have hc := hm c (by simp)
    rw [List.cons_append, urnLoop, if_pos hc]
    have ih := ih (pre ++ [c]) (by simp [ho]) (fun x hx => hm x (by simp [hx]))
    have e : (pre ++ [c]).length = pre.length + 1 := by simp
    rw [e] at ih
    rw [ih]
    by_cases hp : pre.length > 31
    · rw [if_pos hp, if_neg]
      simp; omega
    · rw [if_neg hp]
      have e2 : pre ++ [c] ++ r = pre ++ c :: r := by simp
      rw [e2]
      by_cases hlen : (pre ++ c :: r).length ≤ 32
      · simp only [hlen, true_or, if_true]
      · have : r ≠ [] := by rintro rfl; simp at hlen; omega
        rw [if_neg (by simp [this]; simpa using hlen), if_neg (by simp; simpa using hlen)]

theorem urnLoop_nid_some (o pre rest : Str) (nid nss : Str) (ho : o = pre ++ rest) (h : urnLoop o .nid pre.length rest = some (nid, nss)) :
    ∃ mid, nid = pre ++ mid ∧ rest = mid ++ 58 :: nss ∧ (∀ x ∈ mid, isLetNumHyp x = true) := by
  induction rest generalizing pre with
  | nil => simp [urnLoop] at h
  | cons c r ih =>
    rw [urnLoop] at h
    split at h
    · rename_i hc
      split at h
      · cases h
      · obtain ⟨mid, h1, h2, h3⟩ := ih (pre ++ [c]) (by simp [ho]) (by simpa using h)
        refine ⟨c :: mid, by simp [h1], by simp [h2], ?_⟩
        intro x hx
        rcases List.mem_cons.1 hx with rfl | hx
        · exact hc
        · exact h3 x hx
    · split at h
      · rename_i hc
        rw [urnLoop_nss] at h
        split at h
        · simp only [Option.some.injEq, Prod.mk.injEq] at h
          obtain ⟨h1, h2⟩ := h
          subst ho hc
          refine ⟨[], by rw [← h1]; simp, ?_, by simp⟩
          rw [← h2]; simp
        · cases h
      · cases h

/-- C44: the opaque part of a URN is accepted exactly when it is a namespace identifier other than "urn", ':' and a
string of URN characters, and these are what is returned. -/
theorem C44_accepts (o nid nss : Str) :
    urnParse o = some (nid, nss) ↔
      o = nid ++ 58 :: nss ∧ NidOk nid ∧ (∀ c ∈ nss, isTrans c = true) ∧ lower nid ≠ urnText := by
  have key : ∀ nid nss, urnLoop o .nid0 0 o = some (nid, nss) ↔
      o = nid ++ 58 :: nss ∧ NidOk nid ∧ (∀ c ∈ nss, isTrans c = true) := by
    intro nid nss
    cases o with
    | nil => simp [urnLoop]
    | cons c r =>
      rw [urnLoop]
      constructor
      · intro h
        split at h
        · rename_i hc
          obtain ⟨mid, h1, h2, h3⟩ := urnLoop_nid_some (c :: r) [c] r nid nss rfl (by simpa using h)
          have h4 := urnLoop_nid (c :: r) [c] mid nss (by simp [h2]) h3
          rw [← h2] at h4
          rw [show ([c] : Str).length = 0 + 1 from rfl, h] at h4
          split at h4
          · rename_i hl
            split at h4
            · rename_i ha
              refine ⟨by rw [h1, h2]; simp, ⟨?_, c, mid, by simp [h1], hc, h3⟩, List.all_eq_true.1 ha⟩
              rcases hl with hl | hl
              · rw [h1]; exact hl
              · rw [h1, hl]; simp
            · cases h4
          · cases h4
        · cases h
      · rintro ⟨h1, ⟨hl, d, t, rfl, hd, ht⟩, h3⟩
        simp only [List.cons_append, List.cons.injEq] at h1
        obtain ⟨rfl, rfl⟩ := h1
        rw [if_pos hd]
        have h4 := urnLoop_nid (c :: (t ++ 58 :: nss)) [c] t nss (by simp) ht
        rw [show ([c] : Str).length = 0 + 1 from rfl] at h4
        rw [h4, if_pos (.inl (by simpa using hl)), if_pos (List.all_eq_true.2 h3)]
        simp
  unfold urnParse
  constructor
  · intro h
    split at h
    · cases h
    · rename_i a b hl
      split at h
      · cases h
      · rename_i hn
        simp only [Option.some.injEq, Prod.mk.injEq] at h
        obtain ⟨rfl, rfl⟩ := h
        obtain ⟨h1, h2, h3⟩ := (key _ _).1 hl
        exact ⟨h1, h2, h3, hn⟩
  · rintro ⟨h1, h2, h3, h4⟩
    rw [(key nid nss).2 ⟨h1, h2, h3⟩]
    dsimp only
    rw [if_neg h4]

/-- "isbn:0-395-36341-1" -/
example : urnParse (codes "isbn:0-395-36341-1") = some (codes "isbn", codes "0-395-36341-1") := by decide +kernel

theorem lower_nid (n : Str) (h : NidOk n) : NidOk (lower n) := by
  have k1 : ∀ c, isAlnum c = true → isAlnum (if isUpper c then c + 32 else c) = true := by
    intro c hc
    split
    · rename_i hu; simp [isUpper, isAlnum, isLower, isDigit] at hu ⊢; omega
    · exact hc
  have k2 : ∀ c, isLetNumHyp c = true → isLetNumHyp (if isUpper c then c + 32 else c) = true := by
    intro c hc
    simp only [isLetNumHyp, Bool.or_eq_true] at hc ⊢
    rcases hc with hc | hc
    · exact .inl (k1 c hc)
    · simp at hc; subst hc; right; decide
  obtain ⟨h1, c, r, rfl, hc, hr⟩ := h
  refine ⟨by simpa [lower] using h1, _, lower r, rfl, k1 c hc, ?_⟩
  intro x hx
  obtain ⟨y, hy, rfl⟩ := List.mem_map.1 hx
  exact k2 y (hr y hy)

/-- C44: canonicalizing a URN: scheme and NID in lower case, the escapes of the NSS in upper case.  The canonical
text is itself the text of a URN with these parts, and canonicalizing it again changes nothing. -/
theorem C44_canonicalize (s : Str) (u : URI) (nid nss : Str) (h : urnInit s = some (u, nid, nss)) :
    ∃ sch d, u.scheme = some sch ∧ canonicalizeData nss (fun _ => false) = some d ∧
      urnCanonicalText sch nid nss = some (lower sch ++ 58 :: (lower nid ++ 58 :: d)) ∧
      unescapeData d = unescapeData nss ∧
      urnParse (lower nid ++ 58 :: d) = some (lower nid, d) ∧
      urnCanonicalText (lower sch) (lower nid) d = some (lower sch ++ 58 :: (lower nid ++ 58 :: d)) := by
  unfold urnInit at h
  cases hu : URI.init s with
  | none => rw [hu] at h; cases h
  | some u' =>
  rw [hu] at h
  cases hs : u'.scheme with
  | none => dsimp only [bind, Option.bind] at h; rw [hs] at h; cases h
  | some sch =>
  cases ho : u'.parts.opaquePart with
  | none => dsimp only [bind, Option.bind] at h; rw [hs, ho] at h; cases h
  | some o =>
  cases hp : urnParse o with
  | none => dsimp only [bind, Option.bind] at h; rw [hs, ho] at h; dsimp only at h; rw [hp] at h; cases h
  | some r =>
  rcases r with ⟨a, b⟩
  dsimp only [bind, Option.bind] at h
  rw [hs, ho] at h; dsimp only at h; rw [hp] at h
  simp only [pure, Option.some.injEq, Prod.mk.injEq] at h
  obtain ⟨rfl, rfl, rfl⟩ := h
  obtain ⟨e1, e2, e3, e4⟩ := (C44_accepts o a b).1 hp
  obtain ⟨-, -, hch, -, -⟩ := init_valid s u' hu
  have huric := hch.opaquePart o ho
  rw [e1] at huric
  obtain ⟨-, huric, -⟩ := Uric.split 58 (by decide) (by decide) _ _ huric
  obtain ⟨is, i1, i2⟩ := huric
  have hwe : ∀ i ∈ is, i.Ok (fun _ => true) := by
    intro i hi
    have := i1 i hi
    cases i with
    | lit c => exact ⟨rfl, this.2⟩
    | esc x y => exact this
  have hw : WellEscaped b := ⟨is, hwe, i2⟩
  have hascii : ∀ c ∈ b, c < 128 := fun c hc => isTrans_lt (e3 c hc)
  obtain ⟨d, d1, ⟨oo, d2, d3⟩, d4, d5⟩ := C19_canonicalize b hw hascii (fun _ => false) isAllowed (by simp)
  have hasc : ∀ c, isAllowed c = true → c < 128 := fun c hc => (isAllowed_ascii c hc).1
  have hall : b.all (· < 128) = true := by rw [List.all_eq_true]; intro c hc; simpa using hascii c hc
  have hd : d = textOf (is.map (canonItem (fun _ => false) isAllowed)) := by
    have := canonicalizeLoop_items (fun _ => false) isAllowed is hwe
    rw [i2] at this
    unfold canonicalizeData at d1
    rw [if_pos hall, this] at d1
    simpa using d1.symm
  have htrans : ∀ c ∈ d, isTrans c = true := by
    intro c hc
    rw [hd] at hc
    unfold textOf at hc
    obtain ⟨j, hj, hm⟩ := List.mem_flatMap.1 hc
    obtain ⟨i, hi, rfl⟩ := List.mem_map.1 hj
    have hhex : ∀ x, x < 16 → isTrans (hexDigit x) = true := by decide
    have hok := i1 i hi
    cases i with
    | lit x =>
      simp only [canonItem, hok.1, Bool.not_true, Bool.false_eq_true, if_false, Item.text, List.mem_singleton] at hm
      subst hm
      apply e3
      rw [← i2]
      unfold textOf
      exact List.mem_flatMap.2 ⟨_, hi, by simp [Item.text]⟩
    | esc x y =>
      have hlt := hexPair_lt hok.1 hok.2
      simp only [canonItem, Bool.false_eq_true, if_false, Item.text, List.mem_cons, List.not_mem_nil, or_false] at hm
      rcases hm with rfl | rfl | rfl
      · decide
      · exact hhex _ (by omega)
      · exact hhex _ (by omega)
  refine ⟨sch, d, hs, d1, ?_, ?_, ?_, ?_⟩
  · unfold urnCanonicalText; rw [d1]; rfl
  · rw [d3 hasc, d2]
  · rw [C44_accepts]
    exact ⟨rfl, lower_nid a e2, htrans, by rw [lower_lower]; exact e4⟩
  · unfold urnCanonicalText
    rw [d5 hasc, lower_lower, lower_lower]; rfl

/-- "URN:Foo:a%2f" is canonicalized to "urn:foo:a%2F". -/
example : (do let (u, n, x) ← urnInit (codes "URN:Foo:a%2f"); let sch ← u.scheme; urnCanonicalText sch n x) = some (codes "urn:foo:a%2F") := by
  decide +kernel

/-- C44: the code accepts URNs RFC 2141 does not: a one character NID and an empty NSS. -/
theorem C44_lenient : urnParse (codes "a:") = some (codes "a", []) := by decide +kernel

end Verif.Uri
