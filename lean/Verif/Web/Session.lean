import Verif.Web.Sign
import Verif.Iso.StringProps
import Verif.Iso.TimeProps
import Verif.Text.Utf8
/-!
# C108: sessions in cookies (pyslet/wsgi.py:1871-2521)

Time is in whole seconds since 1970.  The key that `generate_key` returns is a parameter of each request; no request
needs two.  Signatures are verified by a parameter, in the theorems the method of C107.
-/
namespace Verif.Web
open Iso (TimePoint Date fromUnixTime timePoint)

/-! ### Model -/

/-- `CookieSession`, wsgi.py:1871-1959. -/
structure Sess where
  sid : Str
  established : Bool
  seen : Int
  deriving DecidableEq

/-- `last_seen.get_calendar_string(basic=True)` of `TimePoint.from_now_utc()`. -/
def showTime (n : Int) : Option Str := (fromUnixTime n).bind fun p => p.string Date.calendarString true .none true

/-- `TimePoint.from_str` and `get_unixtime`; `none`: ValueError. -/
def readTime (s : Str) : Option Int := (TimePoint.fromStr s none).bind (·.unixtime)

/-- `CookieSession.__unicode__`, wsgi.py:1943-1945. -/
def Sess.text (s : Sess) : Option Str :=
  (showTime s.seen).map fun t => s.sid ++ 45 :: (if s.established then 49 else 48) :: 45 :: t

/-- `CookieSession(src)`, wsgi.py:1929-1941; `none`: ValueError.  An empty text makes a new session. -/
def Sess.parse (fresh : Str) (now : Int) (src : Str) : Option Sess :=
  if src = [] then some ⟨fresh, false, now⟩
  else match Http.splitByte 45 src with
    | a :: b :: c :: _ => (readTime c).map fun t => ⟨a, b == [49], t⟩
    | _ => none

/-- What is set up: how signatures are verified, the time after which sessions end, the canonical root of a URI
(`none` if it is relative) and the root of the application. -/
structure App where
  check : Str → Option Bytes → Out Bytes
  timeout : Int
  root : Str → Option Str
  appRoot : Str

/-- A request: whether it is a POST, the session cookie (empty if there is none), whether there is a test cookie, the
token in the form, the user agent, the URL, and `return`, `s`, `sig` and `framed` of the query. -/
structure Req where
  post : Bool
  cookie : Bytes
  test : Bool
  token : Str
  agent : Str
  url : Str
  query : Option (Str × Str × Str)
  framed : Bool

/-- What the client gets: the page made by the application for a session, an error page, the redirect that tests
cookies, with a signature of the given message, a redirect to the path in the query, a page about missing cookies, or
an internal error. -/
inductive Reply
  | page (s : Sess)
  | error (code : Nat)
  | testCookies (s : Sess) (signed : Str)
  | redirect (path : Str)
  | launch (s : Sess)
  | noCookies
  | internal
  deriving DecidableEq

/-- The session cookie of the response: unchanged, the signed text of a session, or removed. -/
inductive SetCookie
  | keep
  | set (s : Sess)
  | clear
  deriving DecidableEq

/-- `check_signature` of a cookie, decoded and parsed: `none` stands for an exception other than ValueError, `some
none` for ValueError. -/
def cookieSession (app : App) (fresh : Str) (now : Int) (c : Str) : Option (Option Sess) :=
  match app.check c none with
  | .val m => some ((Text.utf8Decode m).bind (Sess.parse fresh now))
  | .valueError => some none
  | _ => none

/-- `set_session`, wsgi.py:2116-2154; `none`: an exception. -/
def setSession (app : App) (fresh : Str) (now : Int) (r : Req) : Option Sess :=
  if ¬ r.cookie.all (· < 128) then none
  else if r.cookie ≠ [] ∧ r.test then
    match cookieSession app fresh now r.cookie with
    | none => none
    | some none => some ⟨fresh, false, now⟩
    | some (some s) =>
      if s.established then
        if now - s.seen > app.timeout then some ⟨fresh, false, now⟩ else some { s with seen := now }
      else if now - s.seen > 120 then some ⟨fresh, false, now⟩
      else some ⟨fresh, true, now⟩
  else some ⟨fresh, false, now⟩

/-- `session_page`, wsgi.py:2239-2260: the message is the session, the URL and the user agent. -/
def sessionPage (s : Sess) (r : Req) : Reply :=
  if r.test then .page s
  else match s.text with
    | some t => .testCookies s (t ++ r.url ++ r.agent)
    | none => .internal

/-- `session_wrapper`, wsgi.py:2080-2114. -/
def wrapper (app : App) (fresh : Str) (now : Int) (r : Req) : Reply × SetCookie :=
  match setSession app fresh now r with
  | none => (.internal, .keep)
  | some s =>
    if r.post then
      match (if r.cookie ≠ [] then cookieSession app fresh now r.cookie else some none) with
      | none => (.internal, .set s)
      | some m =>
        let csrf : Str := (m.map (·.sid)).getD []
        if r.token = [] ∨ r.token ≠ csrf then (.error 403, .set s) else (sessionPage s r, .set s)
    else (sessionPage s r, .set s)

/-- `check_redirect`, wsgi.py:2496-2521. -/
def checkRedirect (app : App) (path : Str) : Bool := path ≠ [] ∧ app.root path = some app.appRoot

/-- The check of the query in `ctest` and `wlaunch`, wsgi.py:2316-2321, 2443-2448: `none` an exception, `some none` a
ValueError. -/
def querySession (app : App) (fresh : Str) (now : Int) (ret s sig agent : Str) : Option (Option Sess) :=
  match Text.utf8Encode (s ++ ret ++ agent) with
  | none => some none
  | some m =>
    match app.check sig (some m) with
    | .val _ =>
      match Sess.parse fresh now s with
      | none => some none
      | some q => if q.established then some none else some (some q)
    | .valueError => some none
    | _ => none

/-- `b'MISSING'`. -/
def missing : Bytes := [77, 73, 83, 83, 73, 78, 71]

/-- `ctest`, wsgi.py:2262-2367. -/
def ctest (app : App) (fresh : Str) (now : Int) (r : Req) : Reply × SetCookie :=
  match r.query with
  | none => (.error 400, .keep)
  | some (ret, s, sig) =>
    if ¬ r.test then (.noCookies, .keep)
    else match querySession app fresh now ret s sig r.agent with
      | none => (.internal, .keep)
      | some none => (.error 400, .clear)
      | some (some q) =>
        let c := if r.cookie = [] then missing else r.cookie
        if ¬ c.all (· < 128) then (.internal, .keep)
        else match app.check c none with
          | .val m =>
            match (Text.utf8Decode m).bind (Sess.parse fresh now) with
            | none => (.error 400, .clear)
            | some k =>
              if k.established then (.error 400, .clear)
              else if k.sid ≠ q.sid then (.error 400, .clear)
              else if ¬ checkRedirect app ret then (.error 400, .clear)
              else match setSession app fresh now r with
                | none => (.internal, .keep)
                | some n => (.redirect ret, .set n)
          -- `cmsg` is not bound in the handler, wsgi.py:2342
          | _ => (.internal, .keep)

/-- `wlaunch`, wsgi.py:2414-2479.  (`merge_session` does nothing.) -/
def wlaunch (app : App) (fresh : Str) (now : Int) (r : Req) : Reply × SetCookie :=
  match r.query with
  | none => (.error 400, .keep)
  | some (ret, s, sig) =>
    match querySession app fresh now ret s sig r.agent with
    | none => (.internal, .keep)
    | some none => (.error 400, .clear)
    | some (some q) =>
      if ¬ checkRedirect app ret then (.error 400, .keep)
      else if ¬ r.test then (.launch q, .set q)
      else match setSession app fresh now r with
        | none => (.internal, .keep)
        | some n => (.redirect ret, .set n)

/-! ### Specification -/

/-- A cookie with a valid signature for a session. -/
def Holds (app : App) (c : Bytes) (s : Sess) : Prop :=
  ∃ m t, app.check c none = .val m ∧ Text.utf8Decode m = some t ∧ t ≠ [] ∧ (∀ f n, Sess.parse f n t = some s)

/-- Times that can be written. -/
def TimeOk (n : Int) : Prop :=
  86400 ≤ n + Iso.instant ⟨1970, 1, 1⟩ ⟨0, 0, 0⟩ .utc ∧ n + Iso.instant ⟨1970, 1, 1⟩ ⟨0, 0, 0⟩ .utc < 86400 * (Iso.maxDay + 1)

end Verif.Web
