import Verif.Cookie.DateProps
import Verif.Http.ParamProps
/-!
# C60: Set-Cookie
-/
namespace Verif.Cookie
open Http (Bytes splitByte joinByte lowerBytes strip)
open Text (isDigit decVal decStr)
open Iso (TimePoint)

/-! ## Specification -/

/-- The name of an attribute: what is before the first '=', without white space; **when there is no '=' white space is kept**, which RFC 6265 does not allow. -/
def attrName (av : Bytes) : Bytes := if 61 ∈ av then lowerBytes (strip (av.takeWhile (· ≠ 61))) else lowerBytes av

/-- The value of an attribute: what is after the first '=', without white space. -/
def attrValue (av : Bytes) : Bytes := strip ((av.dropWhile (· ≠ 61)).drop 1)

/-- The last attribute with a name whose value is accepted. -/
def lastValue (name : Bytes) (ok : Bytes → Bool) (avs : List Bytes) : Option Bytes :=
  ((avs.filter fun av => attrName av == name && ok (attrValue av)).getLast?).map attrValue

/-- A number of seconds: digits, maybe after a '-'. -/
def isDelta (v : Bytes) : Bool := match v with
  | [] => false
  | b :: r => if b = 45 then r.all isDigit else v.all isDigit

/-! ## Proofs -/

theorem cut_none {c : Nat} : ∀ {s : Bytes}, c ∉ s → cut c s = none := by
  intro s
  induction s with
  | nil => intro _; rfl
  | cons b s ih =>
    intro h
    rw [cut, if_neg (by rintro rfl; exact h (by simp)), ih (fun hm => h (by simp [hm]))]; rfl

theorem cut_some {c : Nat} : ∀ {a : Bytes} (r : Bytes), c ∉ a → cut c (a ++ c :: r) = some (a, r) := by
  intro a
  induction a with
  | nil => intro r _; simp [cut]
  | cons b a ih =>
    intro r h
    rw [List.cons_append, cut, if_neg (by rintro rfl; exact h (by simp)), ih r (fun hm => h (by simp [hm]))]; rfl

theorem mem_split {c : Nat} {s : Bytes} (h : c ∈ s) : s = s.takeWhile (· ≠ c) ++ c :: (s.dropWhile (· ≠ c)).drop 1 ∧ c ∉ s.takeWhile (· ≠ c) := by
  induction s with
  | nil => cases h
  | cons b s ih =>
    by_cases hb : b = c
    · subst hb; simp
    · have hm : c ∈ s := by
        rcases List.mem_cons.mp h with h | h
        · exact absurd h.symm hb
        · exact h
      obtain ⟨h1, h2⟩ := ih hm
      rw [List.takeWhile_cons_of_pos (by simpa using hb), List.dropWhile_cons_of_pos (by simpa using hb)]
      refine ⟨?_, ?_⟩
      · rw [List.cons_append, ← h1]
      · intro h3
        rcases List.mem_cons.mp h3 with h3 | h3
        · exact hb h3.symm
        · exact h2 h3

theorem nameValue_eq (av : Bytes) : lowerBytes (nameValue av).1 = attrName av ∧ (nameValue av).2 = attrValue av := by
  unfold nameValue attrName attrValue
  by_cases h : 61 ∈ av
  · obtain ⟨h1, h2⟩ := mem_split h
    rw [if_pos h]
    have : cut 61 av = some (av.takeWhile (· ≠ 61), (av.dropWhile (· ≠ 61)).drop 1) := by
      rw [show cut 61 av = cut 61 (av.takeWhile (· ≠ 61) ++ 61 :: (av.dropWhile (· ≠ 61)).drop 1) by rw [← h1]]
      exact cut_some _ h2
    rw [this]
    exact ⟨rfl, rfl⟩
  · rw [if_neg h, cut_none h]
    refine ⟨rfl, ?_⟩
    have : av.dropWhile (· ≠ 61) = [] := by
      have hall : ∀ (s : Bytes), 61 ∉ s → s.dropWhile (· ≠ 61) = [] := by
        intro s
        induction s with
        | nil => intro _; rfl
        | cons b s ih =>
          intro hs
          rw [List.dropWhile_cons_of_pos (by simp only [ne_eq, decide_eq_true_eq]; rintro rfl; exact hs (by simp))]
          exact ih fun hm => hs (by simp [hm])
      exact hall av h
    rw [this]; rfl

theorem delta_iff (v : Bytes) : (deltaSeconds v).isSome = isDelta v := by
  unfold deltaSeconds isDelta
  cases v with
  | nil => rfl
  | cons b r =>
    dsimp only
    by_cases hb : b = 45
    · rw [if_pos hb, if_pos hb]
      by_cases hr : r = []
      · subst hr; rfl
      · rw [if_neg hr]
        by_cases ha : r.all isDigit = true
        · rw [if_pos ha, ha]; rfl
        · rw [if_neg ha]; simp at ha ⊢; exact ha
    · rw [if_neg hb, if_neg hb]
      by_cases ha : (b :: r).all isDigit = true
      · rw [if_pos ha, ha]; rfl
      · rw [if_neg ha]; rw [Bool.not_eq_true] at ha; rw [ha]; rfl

theorem lastValue_snoc (name : Bytes) (ok : Bytes → Bool) (avs : List Bytes) (av : Bytes) :
    lastValue name ok (avs ++ [av]) = if attrName av = name ∧ ok (attrValue av) = true then some (attrValue av) else lastValue name ok avs := by
  unfold lastValue
  rw [List.filter_append]
  by_cases h : attrName av = name ∧ ok (attrValue av) = true
  · rw [if_pos h]
    simp [h.1, h.2]
  · rw [if_neg h]
    have : ([av].filter fun av => attrName av == name && ok (attrValue av)) = [] := by
      simp only [List.filter_cons, List.filter_nil, Bool.and_eq_true, beq_iff_eq]
      rw [if_neg h]
    rw [this, List.append_nil]

theorem snoc_induction {α : Type} {P : List α → Prop} (h0 : P []) (h1 : ∀ l a, P l → P (l ++ [a])) : ∀ l, P l := by
  intro l
  rw [← List.reverse_reverse l]
  induction l.reverse with
  | nil => exact h0
  | cons a l ih => rw [List.reverse_cons]; exact h1 _ _ ih

/-- The attributes after the loop. -/
theorem attrs_fold (cstr : Bytes → Bytes) : ∀ avs : List Bytes,
    let a := avs.foldl (Attrs.next cstr) {}
    a.expires = (lastValue expiresName (fun _ => true) avs).bind cookieDate ∧
    a.maxAge = (lastValue maxAgeName isDelta avs).bind deltaSeconds ∧
    a.domain = (lastValue domainName (fun v => decide (v ≠ [])) avs).map (domainValue cstr) ∧
    a.path = (lastValue pathName (fun v => decide (v.head? = some 47)) avs).map cstr ∧
    (a.secure = true ↔ ∃ av ∈ avs, attrName av = secureName) ∧
    (a.httpOnly = true ↔ ∃ av ∈ avs, attrName av = httpOnlyName) := by
  apply snoc_induction
  · refine ⟨rfl, rfl, rfl, rfl, ?_, ?_⟩ <;> simp
  · intro l av ih
    simp only [List.foldl_append, List.foldl_cons, List.foldl_nil, lastValue_snoc, List.mem_append, List.mem_singleton]
    simp only at ih
    generalize l.foldl (Attrs.next cstr) {} = a at ih ⊢
    obtain ⟨i1, i2, i3, i4, i5, i6⟩ := ih
    obtain ⟨n1, n2⟩ := nameValue_eq av
    have ex : ∀ name : Bytes, (∃ x, (x ∈ l ∨ x = av) ∧ attrName x = name) ↔ (∃ x ∈ l, attrName x = name) ∨ attrName av = name := by
      intro name
      constructor
      · rintro ⟨x, h | rfl, h2⟩
        · exact .inl ⟨x, h, h2⟩
        · exact .inr h2
      · rintro (⟨x, h, h2⟩ | h2)
        · exact ⟨x, .inl h, h2⟩
        · exact ⟨av, .inr rfl, h2⟩
    rw [ex, ex, ← i5, ← i6]
    unfold Attrs.next
    dsimp only
    rw [n1, n2]
    generalize attrName av = n
    generalize attrValue av = v
    by_cases c1 : n = expiresName
    · subst c1
      have d1 : ¬ expiresName = maxAgeName := by decide
      have d2 : ¬ expiresName = domainName := by decide
      have d3 : ¬ expiresName = pathName := by decide
      have d4 : ¬ expiresName = secureName := by decide
      have d5 : ¬ expiresName = httpOnlyName := by decide
      rw [if_pos rfl]
      simp only [d1, d2, d3, d4, d5, false_and, or_false, if_false, true_and, if_true, Option.bind_some]
      exact ⟨i2, i3, i4, trivial⟩
    · rw [if_neg c1]
      by_cases c2 : n = maxAgeName
      · subst c2
        have d1 : ¬ maxAgeName = expiresName := by decide
        have d2 : ¬ maxAgeName = domainName := by decide
        have d3 : ¬ maxAgeName = pathName := by decide
        have d4 : ¬ maxAgeName = secureName := by decide
        have d5 : ¬ maxAgeName = httpOnlyName := by decide
        rw [if_pos rfl]
        simp only [d1, d2, d3, d4, d5, false_and, or_false, if_false, true_and]
        have := delta_iff v
        cases hv : deltaSeconds v with
        | none =>
          rw [hv] at this
          rw [if_neg (by rw [← this]; simp)]
          exact ⟨i1, i2, i3, i4, Iff.rfl, Iff.rfl⟩
        | some x =>
          rw [hv] at this
          rw [if_pos (show isDelta v = true from this.symm), Option.bind_some, hv]
          exact ⟨i1, rfl, i3, i4, Iff.rfl, Iff.rfl⟩
      · rw [if_neg c2]
        by_cases c3 : n = domainName
        · subst c3
          have d3 : ¬ domainName = pathName := by decide
          have d4 : ¬ domainName = secureName := by decide
          have d5 : ¬ domainName = httpOnlyName := by decide
          rw [if_pos rfl]
          simp only [c1, c2, d3, d4, d5, false_and, or_false, if_false, true_and, decide_eq_true_eq]
          by_cases hv : v = []
          · rw [if_pos hv, if_neg (by simpa using hv)]
            exact ⟨i1, i2, i3, i4, Iff.rfl, Iff.rfl⟩
          · rw [if_neg hv, if_pos hv]
            exact ⟨i1, i2, rfl, i4, Iff.rfl, Iff.rfl⟩
        · rw [if_neg c3]
          by_cases c4 : n = pathName
          · subst c4
            have d4 : ¬ pathName = secureName := by decide
            have d5 : ¬ pathName = httpOnlyName := by decide
            rw [if_pos rfl]
            simp only [c1, c2, c3, d4, d5, false_and, or_false, if_false, true_and, decide_eq_true_eq]
            by_cases hv : v.head? = some 47
            · rw [if_pos hv, if_pos hv]
              exact ⟨i1, i2, i3, rfl, Iff.rfl, Iff.rfl⟩
            · rw [if_neg hv, if_neg hv]
              exact ⟨i1, i2, i3, i4, Iff.rfl, Iff.rfl⟩
          · rw [if_neg c4]
            simp only [c1, c2, c3, c4, false_and, if_false]
            by_cases c5 : n = secureName
            · subst c5
              have d5 : ¬ secureName = httpOnlyName := by decide
              rw [if_pos rfl]
              refine ⟨i1, i2, i3, i4, ?_, ?_⟩
              · simp
              · simp [d5]
            · rw [if_neg c5]
              by_cases c6 : n = httpOnlyName
              · rw [if_pos c6]
                refine ⟨i1, i2, i3, i4, ?_, ?_⟩
                · simp [c5]
                · simp [c6]
              · rw [if_neg c6]
                refine ⟨i1, i2, i3, i4, ?_, ?_⟩
                · simp [c5]
                · simp [c6]

theorem join_cut (pair : Bytes) (avs : List Bytes) (hp : 59 ∉ pair) (ha : ∀ av ∈ avs, 59 ∉ av) (cstr : Bytes → Bytes) :
    setCookieString cstr (joinByte 59 (pair :: avs)) =
      match namePair pair with
      | none => none
      | some (n, v) => if n = [] then none else some ⟨n, v, avs.foldl (Attrs.next cstr) {}⟩ := by
  unfold setCookieString
  cases avs with
  | nil =>
    rw [show joinByte 59 [pair] = pair from rfl, cut_none hp]
    rfl
  | cons av avs =>
    rw [show joinByte 59 (pair :: av :: avs) = pair ++ 59 :: joinByte 59 (av :: avs) from rfl, cut_some _ hp]
    dsimp only
    rw [Http.splitByte_join 59 _ (by simp) ha]
    rfl

/-- **C60**, ignored: a header whose first part has no '=', or nothing but white space before it, is ignored. -/
theorem C60_ignored (cstr : Bytes → Bytes) (pair : Bytes) (avs : List Bytes) (hp : 59 ∉ pair) (ha : ∀ av ∈ avs, 59 ∉ av) :
    setCookieString cstr (joinByte 59 (pair :: avs)) = none ↔ 61 ∉ pair ∨ strip (pair.takeWhile (· ≠ 61)) = [] := by
  rw [join_cut pair avs hp ha]
  unfold namePair
  by_cases h : 61 ∈ pair
  · obtain ⟨h1, h2⟩ := mem_split h
    have : cut 61 pair = some (pair.takeWhile (· ≠ 61), (pair.dropWhile (· ≠ 61)).drop 1) := by
      rw [show cut 61 pair = cut 61 (pair.takeWhile (· ≠ 61) ++ 61 :: (pair.dropWhile (· ≠ 61)).drop 1) by rw [← h1]]
      exact cut_some _ h2
    rw [this]
    simp only [Option.map_some, h, not_true_eq_false, false_or]
    split
    · rename_i h3; exact ⟨fun _ => h3, fun _ => rfl⟩
    · rename_i h3; exact ⟨fun h => (by cases h), fun h => absurd h h3⟩
  · rw [cut_none h]
    simp [h]

/-- **C60**, partial: of a header `n=v; av1; av2; ...` the name and value are `n` and `v` without surrounding white space, split at the first '=';
Expires, Max-Age, Domain and Path are given by the last attribute of that name with an acceptable value; Secure and HttpOnly are set if there
is an attribute of that name.  What is missing is in `attrName`: the name of an attribute without '=' is compared with its white space, so that
`; Secure` is not recognised, see `C60_secure_violation`. -/
theorem C60_attributes_partial (cstr : Bytes → Bytes) (n v : Bytes) (avs : List Bytes) (hn : 61 ∉ n) (hn' : 59 ∉ n) (hv : 59 ∉ v) (ha : ∀ av ∈ avs, 59 ∉ av)
    (hne : strip n ≠ []) :
    ∃ P, setCookieString cstr (joinByte 59 ((n ++ 61 :: v) :: avs)) = some P ∧ P.name = strip n ∧ P.value = strip v ∧
      P.attrs.expires = (lastValue expiresName (fun _ => true) avs).bind cookieDate ∧
      P.attrs.maxAge = (lastValue maxAgeName isDelta avs).bind deltaSeconds ∧
      P.attrs.domain = (lastValue domainName (fun v => decide (v ≠ [])) avs).map (domainValue cstr) ∧
      P.attrs.path = (lastValue pathName (fun v => decide (v.head? = some 47)) avs).map cstr ∧
      (P.attrs.secure = true ↔ ∃ av ∈ avs, attrName av = secureName) ∧
      (P.attrs.httpOnly = true ↔ ∃ av ∈ avs, attrName av = httpOnlyName) := by
  rw [join_cut _ avs (by simp [hn', hv]) ha, namePair, cut_some v hn]
  dsimp only [Option.map_some]
  rw [if_neg hne]
  exact ⟨_, rfl, rfl, rfl, attrs_fold cstr avs⟩

/-- **C60**, values: what Max-Age means: the number, negative after a '-' (0 for a single '-'); the Domain without one leading dot, in lower case. -/
theorem C60_values (v : Bytes) : (v ≠ [] → (∀ b ∈ v, isDigit b = true) → deltaSeconds v = some (decVal v : Int) ∧ deltaSeconds (45 :: v) = some (-(decVal v : Int))) ∧
    deltaSeconds [45] = some 0 ∧ (isDelta v = false → deltaSeconds v = none) ∧
    (∀ cstr, domainValue cstr (46 :: v) = cstr (lowerBytes v)) ∧ (∀ cstr, v.head? ≠ some 46 → domainValue cstr v = cstr (lowerBytes v)) := by
  refine ⟨?_, rfl, ?_, ?_, ?_⟩
  · intro hn hd
    have ha : v.all isDigit = true := List.all_eq_true.mpr hd
    constructor
    · unfold deltaSeconds
      cases v with
      | nil => exact absurd rfl hn
      | cons b r =>
        dsimp only
        rw [if_neg (by rintro rfl; have := hd 45 (by simp); cases this), if_pos ha]
    · unfold deltaSeconds
      dsimp only
      rw [if_pos rfl, if_neg hn, if_pos ha]
  · intro h
    rw [← delta_iff] at h
    cases hd : deltaSeconds v with
    | none => rfl
    | some x => rw [hd] at h; cases h
  · intro cstr; rfl
  · intro cstr h; unfold domainValue; rw [if_neg h]

/-- **C60**, violation: in a header in the usual form, where each attribute is preceded by a space, Secure and HttpOnly are never recognised (unless
they are written with an '='): every cookie is accepted as one that may be sent over http and shown to scripts. -/
theorem C60_secure_violation (cstr : Bytes → Bytes) (n v : Bytes) (avs : List Bytes) (hn : 61 ∉ n) (hn' : 59 ∉ n) (hv : 59 ∉ v) (ha : ∀ av ∈ avs, 59 ∉ av)
    (hne : strip n ≠ []) (hs : ∀ av ∈ avs, 61 ∉ av → av.head? = some 32)
    (he : ∀ av ∈ avs, 61 ∈ av → attrName av ≠ secureName ∧ attrName av ≠ httpOnlyName) :
    ∃ P, setCookieString cstr (joinByte 59 ((n ++ 61 :: v) :: avs)) = some P ∧ P.attrs.secure = false ∧ P.attrs.httpOnly = false := by
  obtain ⟨P, h1, _, _, _, _, _, _, h2, h3⟩ := C60_attributes_partial cstr n v avs hn hn' hv ha hne
  have key : ∀ name : Bytes, name.head? ≠ some 32 → (∀ av ∈ avs, 61 ∈ av → attrName av ≠ name) → ¬ ∃ av ∈ avs, attrName av = name := by
    rintro name hname hh ⟨av, hm, e⟩
    by_cases h61 : 61 ∈ av
    · exact hh av hm h61 e
    · have := hs av hm h61
      unfold attrName at e
      rw [if_neg h61] at e
      apply hname
      rw [← e]
      cases av with
      | nil => cases this
      | cons b r =>
        simp only [List.head?_cons, Option.some.injEq] at this
        subst this
        rfl
  refine ⟨P, h1, ?_, ?_⟩
  · have := key secureName (by decide) fun av hm h => (he av hm h).1
    rw [← h2] at this
    simpa using this
  · have := key httpOnlyName (by decide) fun av hm h => (he av hm h).2
    rw [← h3] at this
    simpa using this

/-- The example of RFC 6265, section 3.1: the header that asks for a secure, HttpOnly cookie. -/
example : setCookieString id ("SID=31d4d96e407aad42; Path=/; Domain=.Example.com; Max-Age=3600; Secure; HttpOnly".toList.map Char.toNat) =
    some ⟨"SID".toList.map Char.toNat, "31d4d96e407aad42".toList.map Char.toNat,
      { path := some [47], domain := some ("example.com".toList.map Char.toNat), maxAge := some 3600, secure := false, httpOnly := false }⟩ := by decide +kernel

/-- Without the spaces they are recognised; the last of two attributes counts. -/
example : setCookieString id ("SID=31d4;Secure;HttpOnly;max-age=5;Max-Age=-;path=/a;Path=b".toList.map Char.toNat) =
    some ⟨"SID".toList.map Char.toNat, "31d4".toList.map Char.toNat, { path := some [47, 97], maxAge := some 0, secure := true, httpOnly := true }⟩ := by decide +kernel

example : setCookieString id ("=x; Secure".toList.map Char.toNat) = none := by decide +kernel

end Verif.Cookie
