import Verif.Web.Dispatch
import Verif.Auth.Text
import Verif.Sql.Literal
import Verif.Text.Decimal
/-!
# C107: application keys (pyslet/wsgi.py:1488-1869)

The cipher and the hash are parameters; the database of keys is a list of records; the lock makes methods atomic.
-/
namespace Verif.Web
open Text (decStr decVal isDigit)

abbrev Bytes := List Nat

/-! ### Model -/

/-- A cipher class (`PlainTextCipher` or `AESCipher`, wsgi.py:1488-1516): `enc key random data`, `dec key data` and
`hash key data` (none: the class has no such method).  A cipher object is given by its key. -/
structure Alg where
  enc : Bytes → Bytes → Bytes → Bytes
  dec : Bytes → Bytes → Bytes
  hash : Option (Bytes → Bytes → Bytes)

/-- `PlainTextCipher`, wsgi.py:1488-1500, for any `sha256`. -/
def plain (sha : Bytes → Bytes) : Alg where
  enc _ _ d := d
  dec _ d := d
  hash := some fun k d => sha (d ++ k)

/-- `AESCipher`, wsgi.py:1503-1516, for any `sha256` and any cipher `E key iv`, `D key iv`; the random bytes are the
initialization vector, of 16 bytes.  It has no method `hash`. -/
def aes (sha : Bytes → Bytes) (E D : Bytes → Bytes → Bytes → Bytes) : Alg where
  enc k r d := let iv := r.take 16; iv ++ E (sha k) iv d
  dec k d := D (sha k) (d.take 16) (d.drop 16)
  hash := none

/-- A record of the entity set of keys: the number and the text; the time of expiry is only used by the
constructor with `when`, which is not modelled. -/
abbrev KeySet := List (Nat × Str)

/-- `AppCipher`, wsgi.py:1564-1590: the ciphers are given by their keys; `old` is the old number, key and time of
expiry. -/
structure Cipher where
  num : Nat
  key : Bytes
  ciphers : List (Nat × Bytes)
  old : Option (Nat × Bytes × Nat)

/-- `self.ciphers.get(n, None)`. -/
def Cipher.find (c : Cipher) (n : Nat) : Option Bytes := c.ciphers.lookup n

/-- `self.ciphers[n] = self.new_cipher(k)`. -/
def Cipher.put (c : Cipher) (n : Nat) (k : Bytes) : Cipher := { c with ciphers := (n, k) :: c.ciphers.filter (·.1 != n) }

/-- The constructor without `when`, wsgi.py:1564-1569, 1587-1590. -/
def newCipher (num : Nat) (key : Bytes) : Cipher := { num, key, ciphers := [(num, key)], old := none }

/-- "%i:%s" with base64, wsgi.py:1680-1682, 1743-1744. -/
def dataText (num : Nat) (d : Bytes) : Str := decStr num ++ 58 :: Auth.b64encode d

/-- `data.split(':')` for two parts. -/
def splitColon (s : Str) : Option (Str × Str) :=
  match s.dropWhile (· ≠ 58) with
  | _ :: r => if 58 ∈ r then none else some (s.takeWhile (· ≠ 58), r)
  | [] => none

/-- `_split_data`, wsgi.py:1828-1837; `none`: ValueError.  (ASCII texts.) -/
def splitData (s : Str) : Option (Nat × Bytes) := do
  let (a, b) ← splitColon s
  if a ≠ [] ∧ a.all isDigit then
    let d ← Auth.b64decode b
    some (decVal a, d)
  else none

/-- `change_key`, wsgi.py:1670-1694: the record of the old key is only inserted if its number is new. -/
def changeKey (A : Alg) (ks : KeySet) (c : Cipher) (num : Nat) (key : Bytes) (when_ : Nat) (rnd : Bytes) : KeySet × Cipher :=
  let c' := { (c.put num key) with num := num, key := key, old := some (c.num, c.key, when_) }
  let text := dataText num (A.enc key rnd c.key)
  (if (ks.lookup c.num).isSome then ks else (c.num, text) :: ks, c')

/-- `_get_current_cipher`, wsgi.py:1696-1706: the number and the key; `none`: KeyError. -/
def currentCipher (c : Cipher) (now : Nat) : Cipher × Option (Nat × Bytes) :=
  match c.old with
  | some (n, _, t) =>
    if t = 0 then (c, (c.find c.num).map fun k => (c.num, k))
    else if now > t then ({ c with old := none }, (c.find c.num).map fun k => (c.num, k))
    else (c, (c.find n).map fun k => (n, k))
  | none => (c, (c.find c.num).map fun k => (c.num, k))

/-- What the loop of `_get_cipher` ends with. -/
inductive Found
  | key (k : Bytes)
  | tooOld
  | valueError
  | fuel
  deriving DecidableEq

/-- `AppCipher.MAX_AGE`, wsgi.py:1562. -/
def maxAge : Nat := 100

/-- The loop of `_get_cipher`, wsgi.py:1710-1731; an entry is the number, the data and the number of the key that the
data gives.  The fuel is enough (`getCipher_ends`).  An empty `key_data` counts as none. -/
def getLoop (A : Alg) (ks : KeySet) : Nat → Cipher → List (Nat × Bytes × Option Nat) → Cipher × Found
  | 0, c, _ => (c, .fuel)
  | _ + 1, c, [] => (c, .fuel)
  | f + 1, c, (num, data, cnum) :: st =>
    match c.find num with
    | none =>
      match ks.lookup num with
      | none => (c, .tooOld)
      | some text =>
        match splitData text with
        | none => (c, .valueError)
        | some (onum, odata) =>
          if st.length + 1 > maxAge then (c, .tooOld)
          else getLoop A ks f c ((onum, odata, some num) :: (num, data, cnum) :: st)
    | some k =>
      if data ≠ [] then
        match cnum with
        | some n => getLoop A ks f (c.put n (A.dec k data)) st
        | none => getLoop A ks f c st
      else (c, .key k)

/-- `_get_cipher`, wsgi.py:1708-1731. -/
def getCipher (A : Alg) (ks : KeySet) (c : Cipher) (num : Nat) : Cipher × Found :=
  getLoop A ks (2 * maxAge + 3) c [(num, [], none)]

/-- `encrypt`, wsgi.py:1733-1744. -/
def encrypt (A : Alg) (c : Cipher) (now : Nat) (rnd : Bytes) (d : Bytes) : Cipher × Option Str :=
  let (c, r) := currentCipher c now
  (c, r.map fun (n, k) => dataText n (A.enc k rnd d))

/-- The end of a call: a value, RuntimeError, ValueError, AttributeError (or a loop without end). -/
inductive Out (α : Type)
  | val (a : α)
  | runtimeError
  | valueError
  | attributeError
  | endless
  deriving DecidableEq

/-- `decrypt`, wsgi.py:1746-1755. -/
def decrypt (A : Alg) (ks : KeySet) (c : Cipher) (s : Str) : Cipher × Out Bytes :=
  match splitData s with
  | none => (c, .valueError)
  | some (n, d) =>
    match getCipher A ks c n with
    | (c, .key k) => (c, .val (A.dec k d))
    | (c, .tooOld) => (c, .runtimeError)
    | (c, .valueError) => (c, .valueError)
    | (c, .fuel) => (c, .endless)

/-- `binascii.unhexlify`; `none`: binascii.Error, a ValueError. -/
def unhexlify (s : Str) : Option Bytes :=
  if s.length % 2 = 0 ∧ s.all Uri.isHex then some (OData.hexBytes s) else none

/-- `sign`, wsgi.py:1757-1771, with the bytes of `os.urandom(4)`. -/
def sign (A : Alg) (c : Cipher) (now : Nat) (salt m : Bytes) : Cipher × Out Str :=
  match currentCipher c now with
  | (c, none) => (c, .runtimeError)
  | (c, some (n, k)) =>
    match A.hash with
    | none => (c, .attributeError)
    | some h => (c, .val (decStr n ++ 45 :: (salt.flatMap Sql.hexlify2 ++ 45 :: (h k (salt ++ m)).flatMap Sql.hexlify2)))

/-- `ascii_sign`, wsgi.py:1826. -/
def asciiSign (A : Alg) (c : Cipher) (now : Nat) (salt m : Bytes) : Cipher × Out Str :=
  match sign A c now salt m with
  | (c, .val s) => (c, .val (s ++ 45 :: Uri.escapeData m))
  | r => r

/-- `_split_signature`, wsgi.py:1839-1853, with `n` parts to come. -/
def splitSig : Nat → Str → List Str
  | 0, s => [s]
  | n + 1, s =>
    match s.dropWhile (· ≠ 45) with
    | _ :: r => s.takeWhile (· ≠ 45) :: splitSig n r
    | [] => s :: List.replicate (n + 1) []

/-- `check_signature`, wsgi.py:1786-1808; `toInt` is `int()` on text without hyphens. -/
def checkSig (A : Alg) (toInt : Str → Option Nat) (ks : KeySet) (c : Cipher) (sig : Str) (message : Option Bytes) : Cipher × Out Bytes :=
  match splitSig 3 sig with
  | [num, salt, hash, sm] =>
    match toInt num, unhexlify salt, unhexlify hash with
    | some num, some salt, some hash =>
      let msg : Option (Option Bytes) :=
        if sm ≠ [] then
          match Uri.unescapeData sm with
          | none => none
          | some sm =>
            match message with
            | some (b :: m) => if b :: m ≠ sm then none else some (some (b :: m))
            | _ => some (some sm)
        else some message
      match msg with
      | none => (c, .valueError)
      | some msg =>
        match getCipher A ks c num with
        | (c, .tooOld) => (c, .runtimeError)
        | (c, .valueError) => (c, .valueError)
        | (c, .fuel) => (c, .endless)
        | (c, .key k) =>
          match A.hash, msg with
          | none, _ => (c, .attributeError)
          | some _, none => (c, .valueError)
          | some h, some m => if h k (salt ++ m) = hash then (c, .val m) else (c, .valueError)
    | _, _, _ => (c, .valueError)
  | _ => (c, .valueError)

/-! ### Specification -/

/-- What is asked of a cipher: deciphering gives the data back, and bytes are made of bytes; texts that are not empty
stay so. -/
structure Good (A : Alg) : Prop where
  dec_enc : ∀ k r d, (∀ b ∈ r, b < 256) → 16 ≤ r.length → A.dec k (A.enc k r d) = d
  bytes : ∀ k r d, (∀ b ∈ r, b < 256) → (∀ b ∈ d, b < 256) → ∀ b ∈ A.enc k r d, b < 256
  nonempty : ∀ k r d, 16 ≤ r.length → d ≠ [] → A.enc k r d ≠ []

/-- Random bytes. -/
def Random (r : Bytes) : Prop := 16 ≤ r.length ∧ ∀ b ∈ r, b < 256

/-- The keys of an application, the first one first: their numbers are different, and they are not empty. -/
structure Keys where
  num : Nat → Nat
  key : Nat → Bytes
  inj : ∀ i j, num i = num j → i = j
  bytes : ∀ i, ∀ b ∈ key i, b < 256
  nonempty : ∀ i, key i ≠ []

end Verif.Web
