import Verif.Http.DateProps
import Verif.Http.Message
/-!
# Model of the parser for Set-Cookie, `pyslet/http/cookie.py:191-320, 342-418, 517-529, 594-710`

These are the generous rules of RFC 6265, section 5 (`strict=False`).  Logging is not modelled.
-/
namespace Verif.Cookie
open Http (Bytes splitByte lowerBytes strip)
open Text (isDigit decVal)
open Iso (TimePoint mkDate mkTime mkTimePoint)

/-! ## Dates -/

/-- `is_delimiter`, cookie.py:191-202. -/
def isDelim (b : Nat) : Bool := b == 9 || (0x20 ≤ b && b ≤ 0x2F) || (0x3B ≤ b && b ≤ 0x40) || (0x5B ≤ b && b ≤ 0x60) || (0x7B ≤ b && b ≤ 0x7E)

/-- `parse_cookie_date_tokens`, cookie.py:609-628, as one loop; `cur` is the token that is being read. -/
def tokenLoop : Bytes → Bytes → List Bytes
  | cur, [] => if cur = [] then [] else [cur]
  | cur, b :: r =>
    if isDelim b then if cur = [] then tokenLoop [] r else cur :: tokenLoop [] r
    else tokenLoop (cur ++ [b]) r

/-- The loop that collects digits in `split_year` and `split_day_of_month`, cookie.py:234-241 and 283-290: `none` is a ValueError. -/
def digitLoop (max : Nat) : Bytes → Bytes → Option Bytes
  | ds, [] => some ds
  | ds, b :: r => if isDigit b then if (ds ++ [b]).length > max then none else digitLoop max (ds ++ [b]) r else some ds

/-- The century of a year with two digits, cookie.py:245-248. -/
def fixYear (y : Nat) : Nat := if y > 69 ∧ y < 100 then y + 1900 else if y < 70 then y + 2000 else y

/-- `split_year`, cookie.py:226-249. -/
def splitYear (s : Bytes) : Option Nat := (digitLoop 4 [] s).bind fun ds => if ds.length < 2 then none else some (fixYear (decVal ds))

/-- The keys of `MONTHS`, cookie.py:252-264. -/
def months : List Bytes := [[106, 97, 110], [102, 101, 98], [109, 97, 114], [97, 112, 114], [109, 97, 121], [106, 117, 110], [106, 117, 108],
  [97, 117, 103], [115, 101, 112], [111, 99, 116], [110, 111, 118], [100, 101, 99]]

/-- `split_month`, cookie.py:267-277. -/
def splitMonth (s : Bytes) : Option Nat := (months.findIdx? (· == lowerBytes (s.take 3))).map (· + 1)

/-- `split_day_of_month`, cookie.py:280-295. -/
def splitDay (s : Bytes) : Option Nat := (digitLoop 2 [] s).bind fun ds => if ds.length < 1 then none else some (decVal ds)

/-- The loop of `split_time`, cookie.py:305-317; `components` and `digits`. -/
def timeLoop : List Nat → Bytes → Bytes → Option (List Nat × Bytes)
  | cs, ds, [] => some (cs, ds)
  | cs, ds, b :: r =>
    if isDigit b then if (ds ++ [b]).length > 2 then none else timeLoop cs (ds ++ [b]) r
    else if ds.length < 1 then none
    else if (cs ++ [decVal ds]).length = 3 ∨ b ≠ 58 then some (cs ++ [decVal ds], [])
    else timeLoop (cs ++ [decVal ds]) [] r

/-- The end of `split_time`, cookie.py:318-322. -/
def timeEnd (r : List Nat × Bytes) : Option (Nat × Nat × Nat) :=
  match (if r.2 ≠ [] then r.1 ++ [decVal r.2] else r.1) with
  | [h, m, s] => some (h, m, s)
  | _ => none

/-- `split_time`, cookie.py:298-322. -/
def splitTime (s : Bytes) : Option (Nat × Nat × Nat) := (timeLoop [] [] s).bind timeEnd

/-- The variables of `require_cookie_date`. -/
structure Found where
  time : Option (Nat × Nat × Nat) := none
  day : Option Nat := none
  month : Option Nat := none
  year : Option Nat := none
  deriving DecidableEq, Repr

/-- A token is used as a year, cookie.py:672-678. -/
def Found.tryYear (f : Found) (tok : Bytes) : Found := if f.year.isNone then { f with year := splitYear tok } else f
/-- A token is used as a month or a year, cookie.py:665-678. -/
def Found.tryMonth (f : Found) (tok : Bytes) : Found :=
  if f.month.isNone ∧ (splitMonth tok).isSome then { f with month := splitMonth tok } else f.tryYear tok
/-- A token is used as a day, a month or a year, cookie.py:658-678. -/
def Found.tryDay (f : Found) (tok : Bytes) : Found :=
  if f.day.isNone ∧ (splitDay tok).isSome then { f with day := splitDay tok } else f.tryMonth tok
/-- One pass of the loop, cookie.py:650-678. -/
def Found.next (f : Found) (tok : Bytes) : Found :=
  if f.time.isNone ∧ (splitTime tok).isSome then { f with time := splitTime tok } else f.tryDay tok

/-- The FullDate object, cookie.py:700-707. -/
def makeDate (year month day hour minute second : Nat) : Option TimePoint :=
  match mkDate { century := some ((year / 100 : Nat) : Int), year := some ((year % 100 : Nat) : Int), month := some (month : Int), day := some (day : Int) } with
  | none => none
  | some d => match mkTime { hour := some (hour : Int), minute := some (minute : Int), second := some (second : Int), zdir := some 0 } with
    | none => none
    | some t => mkTimePoint d t

/-- The tests at the end of `require_cookie_date`, cookie.py:679-710. -/
def Found.result (f : Found) : Option TimePoint :=
  match f.time, f.day, f.month, f.year with
  | some (hour, minute, second), some day, some month, some year =>
    if day < 1 ∨ day > 31 then none
    else if year < 1601 then none
    else if hour > 23 ∨ minute > 59 ∨ second > 59 then none
    else makeDate year month day hour minute second
  | _, _, _, _ => none

/-- `require_cookie_date`, cookie.py:630-710. -/
def cookieDate (s : Bytes) : Option TimePoint := ((tokenLoop [] s).foldl Found.next {}).result

/-! ## Set-Cookie -/

/-- `find(c)` and the slices before and after it. -/
def cut (c : Nat) : Bytes → Option (Bytes × Bytes)
  | [] => none
  | b :: r => if b = c then some ([], r) else (cut c r).map fun p => (b :: p.1, p.2)

/-- The attributes found so far. -/
structure Attrs where
  expires : Option TimePoint := none
  maxAge : Option Int := none
  domain : Option Bytes := none
  path : Option Bytes := none
  secure : Bool := false
  httpOnly : Bool := false
  deriving DecidableEq, Repr

/-- The names of the attributes. -/
def expiresName : Bytes := [101, 120, 112, 105, 114, 101, 115]
def maxAgeName : Bytes := [109, 97, 120, 45, 97, 103, 101]
def domainName : Bytes := [100, 111, 109, 97, 105, 110]
def pathName : Bytes := [112, 97, 116, 104]
def secureName : Bytes := [115, 101, 99, 117, 114, 101]
def httpOnlyName : Bytes := [104, 116, 116, 112, 111, 110, 108, 121]

/-- The value of Max-Age, cookie.py:388-402; `none` when it is ignored. -/
def deltaSeconds (v : Bytes) : Option Int :=
  match v with
  | [] => none
  | b :: r =>
    if b = 45 then
      if r = [] then some 0 else if r.all isDigit then some (-(decVal r : Int)) else none
    else if v.all isDigit then some (decVal v : Int) else none

/-- The value of Domain, cookie.py:403-409; `cstr` is `Cookie.cstr`. -/
def domainValue (cstr : Bytes → Bytes) (v : Bytes) : Bytes :=
  cstr (lowerBytes (if v.head? = some 46 then v.tail else v))

/-- The name and value of an attribute, cookie.py:377-383. The name is not stripped when there is no '='. -/
def nameValue (av : Bytes) : Bytes × Bytes :=
  match cut 61 av with
  | none => (av, [])
  | some (n, v) => (strip n, strip v)

/-- One pass of the loop over the attributes, cookie.py:369-415. -/
def Attrs.next (cstr : Bytes → Bytes) (a : Attrs) (av : Bytes) : Attrs :=
  let n := lowerBytes (nameValue av).1
  let v := (nameValue av).2
  if n = expiresName then { a with expires := cookieDate v }
  else if n = maxAgeName then match deltaSeconds v with
    | none => a
    | some x => { a with maxAge := some x }
  else if n = domainName then if v = [] then a else { a with domain := some (domainValue cstr v) }
  else if n = pathName then if v.head? = some 47 then { a with path := some (cstr v) } else a
  else if n = secureName then { a with secure := true }
  else if n = httpOnlyName then { a with httpOnly := true }
  else a

/-- The attribute `domain` of the Cookie object, cookie.py:772-779. -/
def cookieDomain : Option Bytes → Option Bytes
  | none => none
  | some d => if d = [] then some d else if d.head? = some 46 then some d.tail else if d.getLast? = some 46 then none else some d

/-- The attribute `expires_time` of the Cookie object, cookie.py:788-804; `none` outside stands for an exception. -/
def expiresTime (now : Int) (a : Attrs) : Option (Option Int) :=
  match a.maxAge with
  | some m => some (some (if m ≤ 0 then 0 else now + m))
  | none => match a.expires with
    | none => some none
    | some e => e.unixtime.map some

/-- What is parsed. -/
structure Parsed where
  name : Bytes
  value : Bytes
  attrs : Attrs
  deriving DecidableEq, Repr

/-- `require_name_value_pair`, cookie.py:517-529. -/
def namePair (s : Bytes) : Option (Bytes × Bytes) := (cut 61 s).map fun p => (strip p.1, strip p.2)

/-- `require_set_cookie_string`, cookie.py:342-418, up to the call of `Cookie`; `none` is the result None: the definition is ignored. -/
def setCookieString (cstr : Bytes → Bytes) (s : Bytes) : Option Parsed :=
  let (pair, attrs) := match cut 59 s with
    | none => (s, [])
    | some (p, r) => (p, splitByte 59 r)
  match namePair pair with
  | none => none
  | some (n, v) => if n = [] then none else some ⟨n, v, attrs.foldl (Attrs.next cstr) {}⟩

end Verif.Cookie
