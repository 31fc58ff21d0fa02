/-!
# Paging through a collection of entities

Models `pyslet.odata2.csdl.EntityCollection.set_page`, `set_topmax`, `iterpage` and
`next_skiptoken` (csdl.py:3249-3364), the server's use of them for one request
(server.py:730-750, 1011, core.py:2926-2952) and the client's loop that follows "next" links
(client.py:187-233).

The collection itself (`itervalues`) is a fixed list `es`: filtering, ordering and expansion
happen before paging and are not part of this file.  Text is a list of code points.
-/
namespace Verif.OData.Paging

/-! ## `"%X" % n` and `int(s, 16)` -/

/-- One upper case hexadecimal digit. -/
def hexChar (d : Nat) : Nat := if d < 10 then 48 + d else 55 + d

/-- Upper case hexadecimal digits without leading zeros (`"%X" % n`, n ≥ 0; csdl.py:3314);
`fuel` bounds the number of digits. -/
def hexAux : Nat → Nat → List Nat
  | 0, _ => []
  | fuel + 1, n => if n < 16 then [hexChar n] else hexAux fuel (n / 16) ++ [hexChar (n % 16)]

/-- `"%X" % n` for an integer (csdl.py:3314). -/
def hexStr (n : Int) : List Nat :=
  if n < 0 then 45 :: hexAux (n.natAbs + 1) n.natAbs else hexAux (n.natAbs + 1) n.natAbs

/-- Value of a hexadecimal digit, any case. -/
def hexVal (c : Nat) : Option Nat :=
  if 48 ≤ c ∧ c ≤ 57 then some (c - 48)
  else if 65 ≤ c ∧ c ≤ 70 then some (c - 55)
  else if 97 ≤ c ∧ c ≤ 102 then some (c - 87)
  else none

/-- Digits after the first, single underscores allowed between digits (Python `int(s, 16)`). -/
def hexRest : Nat → List Nat → Option Nat
  | acc, [] => some acc
  | acc, 95 :: c :: cs => (hexVal c).bind fun d => hexRest (16 * acc + d) cs
  | acc, c :: cs => (hexVal c).bind fun d => hexRest (16 * acc + d) cs

/-- Unsigned digits. -/
def hexDigits : List Nat → Option Nat
  | [] => none
  | c :: cs => (hexVal c).bind fun d => hexRest d cs

/-- ASCII white space skipped by `int`. -/
def isWs (c : Nat) : Bool := c == 32 || (9 ≤ c && c ≤ 13)

/-- An optional `0x` prefix, after which one underscore is also allowed. -/
def hexBody : List Nat → Option Nat
  | 48 :: 120 :: 95 :: cs => hexDigits cs
  | 48 :: 120 :: cs => hexDigits cs
  | 48 :: 88 :: 95 :: cs => hexDigits cs
  | 48 :: 88 :: cs => hexDigits cs
  | cs => hexDigits cs

/-- An optional sign. -/
def hexSigned : List Nat → Option Int
  | 45 :: cs => (hexBody cs).map fun n => - (n : Int)
  | 43 :: cs => (hexBody cs).map fun n => (n : Int)
  | cs => (hexBody cs).map fun n => (n : Int)

/-- Python's `int(s, 16)`; `none` is the ValueError (csdl.py:3302).  Simplified: only ASCII
white space and digits are recognised (Python also accepts other Unicode ones). -/
def intHex (s : List Nat) : Option Int :=
  hexSigned ((s.dropWhile isWs).reverse.dropWhile isWs).reverse

/-! ## `iterpage` -/

/-- The paging state of a collection (csdl.py:2955-2990, 3249-3264).  `topmax = some 0` and
`none` are treated alike by the code (`if self.topmax:`). -/
structure St where
  top : Option Nat
  skip : Option Int
  skiptoken : Option (List Nat)
  nextSkiptoken : Option (List Nat)
  topmax : Option Nat
  deriving DecidableEq, Repr

/-- `set_page(top, skip, skiptoken)` (csdl.py:3249-3264). -/
def setPage (s : St) (top : Option Nat) (skip : Option Int) (tok : Option (List Nat)) : St :=
  { s with top := top, skip := skip, skiptoken := tok, nextSkiptoken := none }

/-- `emin` of csdl.py:3301-3309; a token that is missing or not a number counts as 0. -/
def emin (s : St) : Int :=
  ((s.skiptoken.bind intHex).getD 0) + s.skip.getD 0

/-- The truth value of `self.topmax` (csdl.py:3310). -/
def limit (s : St) : Option Nat :=
  match s.topmax with
  | some (m + 1) => some (m + 1)
  | _ => none

/-- Does the server's limit cut the page (csdl.py:3311)? -/
def cuts (s : St) : Option Nat :=
  match limit s with
  | none => none
  | some m =>
    match s.top with
    | none => some m
    | some t => if t > m then some m else none

/-- `emax` of csdl.py:3310-3323; `none` for an unlimited page. -/
def emax (s : St) : Option Int :=
  match cuts s with
  | some m => some (emin s + m)
  | none => s.top.map fun t => emin s + t

/-- `self.nextSkiptoken` as computed before the iteration (csdl.py:3300, 3314). -/
def nextTok (s : St) : Option (List Nat) :=
  (cuts s).map fun m => hexStr (emin s + m)

/-- The loop of csdl.py:3327-3331 (no upper limit). -/
def runAll {α : Type} (lo : Int) : Int → List α → List α
  | _, [] => []
  | i, e :: es => if i ≥ lo then e :: runAll lo (i + 1) es else runAll lo (i + 1) es

/-- The loop of csdl.py:3333-3350: the entities yielded, and `some i` when the loop left by the
`return` with one more entity in hand. -/
def runTo {α : Type} (lo hi : Int) : Int → List α → List α × Option Int
  | _, [] => ([], none)
  | i, e :: es =>
    if i < lo then runTo lo hi (i + 1) es
    else if i < hi then ((e :: (runTo lo hi (i + 1) es).1), (runTo lo hi (i + 1) es).2)
    else ([], some i)

/-- The assignments of csdl.py:3342-3349, made when there is a next page. -/
def setNext (s : St) (i : Int) : St :=
  match s.nextSkiptoken with
  | none => { s with skip := some i, skiptoken := none }
  | some t => { s with skip := none, skiptoken := some t }

/-- The assignments of csdl.py:3354-3356, made when the last page has been returned. -/
def setDone (s : St) : St := { s with top := some 0, skip := some 0, skiptoken := none }

/-- What follows the loop. -/
def finish (s : St) (setNextFlag : Bool) : Option Int → St
  | some i => if setNextFlag then setNext s i else s
  | none => if setNextFlag then setDone s else s

/-- A complete iteration of `iterpage(set_next)` over a collection whose `itervalues` is `es`
(csdl.py:3283-3356): the page and the state left behind. -/
def iterpage {α : Type} (es : List α) (s : St) (flag : Bool) : List α × St :=
  if s.top = some 0 then ([], s)
  else
    let s1 := { s with nextSkiptoken := nextTok s }
    match emax s with
    | none => (runAll (emin s) 0 es, finish s1 flag none)
    | some hi => ((runTo (emin s) hi 0 es).1, finish s1 flag (runTo (emin s) hi 0 es).2)

/-- The first `n` pages obtained by calling `iterpage(True)` again and again. -/
def pages {α : Type} (es : List α) : Nat → St → List (List α)
  | 0, _ => []
  | n + 1, s => (iterpage es s true).1 :: pages es n (iterpage es s true).2

/-- The state after those calls. -/
def after {α : Type} (es : List α) : Nat → St → St
  | 0, s => s
  | n + 1, s => after es n (iterpage es s true).2

/-! ## The server's pages and the client that follows the links -/

/-- One request: a fresh collection with the request's options and the server's `topmax`
(server.py:730-750, 1011), iterated once without `set_next` (core.py:3413); the page and the token
of the "next" link, if there is one (core.py:2931, 3416). -/
def serve {α : Type} (es : List α) (topmax : Nat) (top : Option Nat) (skip : Option Int)
    (tok : Option (List Nat)) : List α × Option (List Nat) :=
  let r := iterpage es ⟨top, skip, tok, none, some topmax⟩ false
  (r.1, r.2.nextSkiptoken)

/-- The pages got by following `n` "next" links: the link carries the token and no `$top` or
`$skip` (core.py:2932-2952). -/
def follow {α : Type} (es : List α) (topmax : Nat) : Nat → List α × Option (List Nat) →
    List (List α)
  | 0, r => [r.1]
  | n + 1, r =>
    match r.2 with
    | none => [r.1]
    | some t => r.1 :: follow es topmax n (serve es topmax none none (some t))

/-- The client's loop (client.py:208-233): stops at an empty feed or when there is no link.
`fuel` bounds the number of requests; `none` when it runs out. -/
def clientLoop {α : Type} (es : List α) (topmax : Nat) : Nat → List α × Option (List Nat) →
    Option (List α)
  | 0, _ => none
  | fuel + 1, r =>
    if r.1 = [] then some []
    else
      match r.2 with
      | none => some r.1
      | some t =>
        (clientLoop es topmax fuel (serve es topmax none none (some t))).map (r.1 ++ ·)

end Verif.OData.Paging
