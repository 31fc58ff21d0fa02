/-
C174: where a ClientRequest goes, and when it is tried again (pyslet/http/client.py:1675-1778, 1822-1846).
-/
namespace Verif.Http.Target

abbrev Str := List Nat

/-! ## Model -/

/-- The class that `URI.from_octets` makes for a scheme (rfc2396.py:724-738): HTTPURL, HTTPSURL, another
ServerBasedURL (`file`), or a plain URI or URN, which has no attribute `userinfo`. -/
inductive Kind where
  | http
  | https
  | server
  | plain
deriving DecidableEq, Repr

/-- A URL, as far as `set_url` looks at it.  `port` is a text of digits (rfc2396.py:427-436), which may
be empty. -/
structure Url where
  kind : Kind
  userinfo : Option Str := none
  host : Option Str := none
  port : Option Str := none
  absPath : Option Str := none
  query : Option Str := none
deriving DecidableEq, Repr

/-- params.py:229 and 287 `DEFAULT_PORT`. -/
def Kind.defaultPort : Kind → Nat
  | .https => 443
  | _ => 80

/-- `"%i"` -/
def dec (n : Nat) : Str := if h : n < 10 then [48 + n] else dec (n / 10) ++ [48 + n % 10]
termination_by n
decreasing_by omega

/-- `int` of a text of digits. -/
def int (s : Str) : Nat := s.foldl (fun a c => 10 * a + (c - 48)) 0

/-- What `set_url` writes in a request.  `headers` are the lower case names with their values
(messages.py:1126-1154); the Host is not stripped, a host has no white space. -/
structure Req where
  url : Option Url := none
  scheme : Option Str := none
  hostname : Option Str := none
  port : Option Nat := none
  requestUri : Option Str := none
  headers : List (Str × Str) := []
deriving DecidableEq, Repr

/-- What a call does. -/
inductive Out where
  | ok
  | notImplemented
  | attributeError
  | httpException
deriving DecidableEq, Repr

/-- "host" -/
def sHost : Str := [104, 111, 115, 116]

/-- messages.py:1142-1154 `set_header`, not in append mode: a dictionary keeps the place of a key. -/
def setHeader (k v : Str) : List (Str × Str) → List (Str × Str)
  | [] => [(k, v)]
  | (a, b) :: r => if a = k then (k, v) :: r else (a, b) :: setHeader k v r

/-- client.py:1748-1753: `request_uri` -/
def requestUri (u : Url) : Str :=
  (match u.absPath with
    | some (c :: p) => c :: p
    | _ => [47]) ++
  (match u.query with
    | some q => 63 :: q
    | none => [])

/-- client.py:1763-1768: the port and whether it is a custom one. -/
def portOf (u : Url) : Nat × Bool :=
  match u.port with
  | some (c :: p) => (int (c :: p), decide (int (c :: p) ≠ u.kind.defaultPort))
  | _ => (u.kind.defaultPort, false)

/-- client.py:1734-1778 `set_url` -/
def setUrl (r : Req) (u : Url) : Out × Req :=
  let r := { r with url := some u }
  if u.kind = .plain then (.attributeError, r)
  else if u.userinfo.getD [] ≠ [] then (.notImplemented, r)
  else
    let r := { r with requestUri := some (requestUri u) }
    if u.kind = .server then (.httpException, r)
    else
      let r := { r with
        scheme := some (if u.kind = .https then [104, 116, 116, 112, 115] else [104, 116, 116, 112])
        hostname := u.host
        port := some (portOf u).1 }
      match u.host with
      | some (c :: h) =>
        let v := if (portOf u).2 = false then c :: h else c :: h ++ [58] ++ dec (portOf u).1
        (.ok, { r with headers := setHeader sHost v r.headers })
      | _ => (.httpException, r)

/-- The state of the waiting times: `_rt1`, `_rt2` (client.py:1717-1719). -/
structure Wait where
  rt1 : Nat
  rt2 : Nat
deriving DecidableEq, Repr

/-- client.py:1718-1719 -/
def Wait.start (minRetryTime : Nat) : Wait := ⟨0, minRetryTime⟩

/-- client.py:1839-1844 in `disconnect`, of a request that may be sent again.  The time that is waited
is four times as fine as `min_retry_time`, and `random.random()` is `r / d` with `r < d`: the result is
the waiting time in units of `1 / (4 * d)`. -/
def Wait.disconnect (w : Wait) (r d : Nat) : Nat × Wait :=
  (w.rt1 * (5 * d - 2 * r), ⟨w.rt1 + w.rt2, w.rt1⟩)

/-- The waiting times of a list of disconnects, with the random numbers `rs`. -/
def waits (d : Nat) : Wait → List Nat → List Nat
  | _, [] => []
  | w, r :: rs => (w.disconnect r d).1 :: waits d (w.disconnect r d).2 rs

/-! ## Specification -/

/-- The digits of a port and their value. -/
inductive Digits : Str → Nat → Prop
  | one (k : Nat) : k < 10 → Digits [48 + k] k
  | more (s : Str) (n k : Nat) : Digits s n → k < 10 → Digits (s ++ [48 + k]) (10 * n + k)

/-- A Host header names a host and a port, where `dflt` is the port of the scheme (RFC 2616, 14.23). -/
def Names (dflt : Nat) (value host : Str) (port : Nat) : Prop :=
  (value = host ∧ port = dflt) ∨ ∃ ds, value = host ++ [58] ++ ds ∧ Digits ds port

/-- The port that a URL means. -/
def Means (u : Url) (port : Nat) : Prop :=
  ((u.port = none ∨ u.port = some []) ∧
    ((u.kind = .http ∧ port = 80) ∨ (u.kind = .https ∧ port = 443))) ∨
  ∃ ds, u.port = some ds ∧ Digits ds port

/-- The Fibonacci numbers. -/
def fib : Nat → Nat
  | 0 => 0
  | 1 => 1
  | n + 2 => fib n + fib (n + 1)

/-! ## Proofs -/

theorem dec_digits (n : Nat) : Digits (dec n) n := by
  induction n using Nat.strongRecOn with
  | ind n ih =>
    unfold dec
    split
    · next h => exact .one n h
    · next h =>
      have := Digits.more _ _ (n % 10) (ih (n / 10) (by omega)) (by omega)
      rwa [show 10 * (n / 10) + n % 10 = n by omega] at this

theorem digits_int {s : Str} {n : Nat} (h : Digits s n) : int s = n := by
  induction h with
  | one k hk => simp [int]
  | more s n k _ hk ih =>
    unfold int at *
    rw [List.foldl_append, ih]
    simp

theorem digits_ne {s : Str} {n : Nat} (h : Digits s n) : s ≠ [] := by
  cases h <;> simp

theorem digits_mem {s : Str} {n : Nat} (h : Digits s n) : 58 ∉ s := by
  induction h with
  | one k hk => simp; omega
  | more s n k _ hk ih => simp only [List.mem_append, List.mem_singleton, not_or]; exact ⟨ih, by omega⟩

theorem portOf_means (u : Url) (p : Nat) (h : Means u p) :
    (portOf u).1 = p ∧ ((portOf u).2 = false → p = u.kind.defaultPort) := by
  unfold portOf
  rcases h with ⟨hp, hk⟩ | ⟨ds, hp, hd⟩
  · have hdp : u.kind.defaultPort = p := by
      rcases hk with ⟨hk, rfl⟩ | ⟨hk, rfl⟩ <;> rw [hk] <;> rfl
    rcases hp with hp | hp <;> rw [hp] <;> exact ⟨hdp, fun _ => hdp.symm⟩
  · rw [hp]
    cases ds with
    | nil => exact absurd rfl (digits_ne hd)
    | cons c t =>
      dsimp only
      rw [digits_int hd]
      exact ⟨rfl, by simp⟩

theorem mem_setHeader (k v : Str) (l : List (Str × Str)) : (k, v) ∈ setHeader k v l := by
  induction l with
  | nil => simp [setHeader]
  | cons a r ih =>
    obtain ⟨a, b⟩ := a
    unfold setHeader
    split
    · simp
    · exact List.mem_cons_of_mem _ ih

theorem setHeader_other (k v a b : Str) (h : a ≠ k) (l : List (Str × Str)) :
    (a, b) ∈ setHeader k v l ↔ (a, b) ∈ l := by
  induction l with
  | nil => simp [setHeader, h]
  | cons x r ih =>
    obtain ⟨x, y⟩ := x
    unfold setHeader
    split
    · next hx => subst hx; simp [h]
    · simp [ih]

theorem setHeader_keys (k v : Str) (l : List (Str × Str)) (h : (l.map (·.1)).Nodup) :
    ((setHeader k v l).map (·.1)).Nodup ∧ ∀ w, (k, w) ∈ setHeader k v l → w = v := by
  induction l with
  | nil => simp [setHeader]
  | cons x r ih =>
    obtain ⟨x, y⟩ := x
    simp only [List.map_cons, List.nodup_cons] at h
    obtain ⟨i1, i2⟩ := ih h.2
    unfold setHeader
    split
    · next hx =>
      subst hx
      refine ⟨by simpa using h, ?_⟩
      intro w hw
      rcases List.mem_cons.mp hw with e | e
      · cases e; rfl
      · exact absurd (List.mem_map.mpr ⟨_, e, rfl⟩) h.1
    · next hx =>
      constructor
      · simp only [List.map_cons, List.nodup_cons]
        refine ⟨?_, i1⟩
        intro hm
        obtain ⟨⟨a, b⟩, hm', e⟩ := List.mem_map.mp hm
        dsimp only at e
        subst e
        rw [setHeader_other _ _ _ _ hx] at hm'
        exact h.1 (List.mem_map.mpr ⟨_, hm', rfl⟩)
      · intro w hw
        rcases List.mem_cons.mp hw with e | e
        · cases e; exact absurd rfl hx
        · exact i2 w e

/-- **C174** (target): a URL of http or https with a host and without user information is accepted; the
request is then for the host and the port that the URL means; its only Host header names them; other
headers are kept; and the request line has the path, `/` if there is none, and the query. -/
theorem C174_target (r : Req) (u : Url) (p : Nat) (c : Nat) (h : Str)
    (hr : (r.headers.map (·.1)).Nodup) (hk : u.kind = .http ∨ u.kind = .https) (hu : u.userinfo = none)
    (hh : u.host = some (c :: h)) (hp : Means u p) :
    ∃ v r', setUrl r u = (.ok, r') ∧ r'.url = some u ∧
      r'.scheme = some (if u.kind = .https then [104, 116, 116, 112, 115] else [104, 116, 116, 112]) ∧
      r'.hostname = some (c :: h) ∧ r'.port = some p ∧
      (∀ w, ([104, 111, 115, 116], w) ∈ r'.headers ↔ w = v) ∧ (r'.headers.map (·.1)).Nodup ∧
      Names (if u.kind = .https then 443 else 80) v (c :: h) p ∧
      (∀ a b, a ≠ [104, 111, 115, 116] → ((a, b) ∈ r'.headers ↔ (a, b) ∈ r.headers)) ∧
      (∀ q, u.absPath = none ∨ u.absPath = some [] → u.query = some q → r'.requestUri = some (47 :: 63 :: q)) ∧
      (∀ x y, u.absPath = some (x :: y) → u.query = none → r'.requestUri = some (x :: y)) ∧
      (∀ x y q, u.absPath = some (x :: y) → u.query = some q → r'.requestUri = some (x :: y ++ 63 :: q)) ∧
      (u.absPath = none ∨ u.absPath = some [] → u.query = none → r'.requestUri = some [47]) := by
  obtain ⟨p1, p2⟩ := portOf_means u p hp
  have n1 : u.kind ≠ .plain := by rcases hk with hk | hk <;> rw [hk] <;> decide
  have n2 : u.kind ≠ .server := by rcases hk with hk | hk <;> rw [hk] <;> decide
  have hd : u.kind.defaultPort = (if u.kind = .https then 443 else 80) := by
    rcases hk with hk | hk <;> rw [hk] <;> rfl
  let v := if (portOf u).2 = false then c :: h else c :: h ++ [58] ++ dec (portOf u).1
  obtain ⟨k1, k2⟩ := setHeader_keys sHost v r.headers hr
  refine ⟨v, { url := some u, scheme := some (if u.kind = .https then [104, 116, 116, 112, 115] else [104, 116, 116, 112]), hostname := some (c :: h), port := some p, requestUri := some (requestUri u), headers := setHeader sHost v r.headers }, ?_, ?_, ?_, ?_, ?_, ?_, ?_, ?_, ?_, ?_, ?_, ?_, ?_⟩
  · unfold setUrl
    simp only [hu, hh, n1, n2, p1, Option.getD_none, ne_eq, not_true_eq_false, if_false, v]
  · rfl
  · rfl
  · rfl
  · rfl
  · intro w
    exact ⟨k2 w, fun e => e ▸ mem_setHeader _ _ _⟩
  · exact k1
  · rw [← hd]
    by_cases hb : (portOf u).2 = false
    · exact .inl ⟨by simp [v, hb], p2 hb⟩
    · exact .inr ⟨dec p, by simp [v, hb, p1], dec_digits p⟩
  · intro a b hab
    exact setHeader_other _ _ _ _ hab _
  · rintro q (e | e) hq <;> simp [requestUri, e, hq]
  · intro x y e hq; simp [requestUri, e, hq]
  · intro x y q e hq; simp [requestUri, e, hq]
  · rintro (e | e) hq <;> simp [requestUri, e, hq]

theorem colon_unique (a b s t : Str) (ha : 58 ∉ a) (hb : 58 ∉ b) (h : a ++ 58 :: s = b ++ 58 :: t) : a = b ∧ s = t := by
  induction a generalizing b with
  | nil =>
    cases b with
    | nil => simpa using h
    | cons x b => simp at h; exact absurd h.1.symm (by intro e; exact hb (by simp [e]))
  | cons x a ih =>
    cases b with
    | nil => simp at h; exact absurd h.1 (by intro e; exact ha (by simp [e]))
    | cons y b =>
      simp only [List.cons_append, List.cons.injEq] at h
      obtain ⟨e, h⟩ := h
      obtain ⟨i1, i2⟩ := ih b (fun m => ha (by simp [m])) (fun m => hb (by simp [m])) h
      exact ⟨by rw [e, i1], i2⟩

/-- **C174** (Host): a server that reads the Host header finds no other host and port in it. -/
theorem C174_host (dflt : Nat) (v h h' : Str) (p p' : Nat) (hh : 58 ∉ h) (hh' : 58 ∉ h')
    (a : Names dflt v h p) (b : Names dflt v h' p') : h = h' ∧ p = p' := by
  rcases a with ⟨rfl, rfl⟩ | ⟨ds, rfl, hd⟩ <;> rcases b with ⟨e, rfl⟩ | ⟨ds', e, hd'⟩
  · exact ⟨e, rfl⟩
  · exact absurd (by rw [e]; simp) hh
  · exact absurd (by rw [← e]; simp) hh'
  · simp only [List.append_assoc, List.singleton_append] at e
    obtain ⟨e1, e2⟩ := colon_unique _ _ _ _ hh hh' e
    subst e2
    exact ⟨e1, by rw [← digits_int hd, ← digits_int hd']⟩

/-- **C174** (errors): nothing else is accepted. -/
theorem C174_accepts (r r' : Req) (u : Url) (h : setUrl r u = (.ok, r')) :
    (u.kind = .http ∨ u.kind = .https) ∧ (u.userinfo = none ∨ u.userinfo = some []) ∧
      ∃ c t, u.host = some (c :: t) := by
  unfold setUrl at h
  dsimp only at h
  split at h
  · simp at h
  next h1 =>
  split at h
  · simp at h
  next h2 =>
  split at h
  · simp at h
  next h3 =>
  split at h
  · next c t hh =>
    refine ⟨?_, ?_, c, t, hh⟩
    · cases hk : u.kind with
      | http => exact .inl rfl
      | https => exact .inr rfl
      | server => exact absurd hk h3
      | plain => exact absurd hk h1
    · cases hu : u.userinfo with
      | none => exact .inl rfl
      | some s =>
        rw [hu] at h2
        cases s with
        | nil => exact .inr rfl
        | cons a s => exact absurd (List.cons_ne_nil a s) h2
  · simp at h

/-- **C174** (violation): a scheme that is not supported is not refused with HTTPException but with
AttributeError, unless it is `file`; and the request keeps the URL that was refused, beside the host,
the port and the Host header of the old one. -/
theorem C174_refused_violation (r : Req) (u : Url) (hk : u.kind = .plain) :
    setUrl r u = (.attributeError, { r with url := some u }) := by
  simp [setUrl, hk]

/-- **C174** (violation): without a host the request has the new path and the old Host header. -/
theorem C174_nohost_violation (r : Req) (u : Url) (hk : u.kind = .http) (hu : u.userinfo = none) (hh : u.host = none) :
    ∃ r', setUrl r u = (.httpException, r') ∧ r'.headers = r.headers ∧ r'.requestUri = some (requestUri u) ∧
      r'.hostname = none := by
  refine ⟨{ r with url := some u, requestUri := some (requestUri u), scheme := some [104, 116, 116, 112], hostname := none, port := some (portOf u).1 }, ?_, rfl, rfl, rfl⟩
  simp [setUrl, hk, hu, hh]

theorem waits_get (d m : Nat) : ∀ (rs : List Nat) (k : Nat) (w : Wait) (i : Nat) (hi : i < rs.length),
    w.rt1 = m * fib k → w.rt1 + w.rt2 = m * fib (k + 1) →
    (waits d w rs)[i]? = some (m * fib (k + i) * (5 * d - 2 * rs[i])) := by
  intro rs
  induction rs with
  | nil => intro k w i hi; exact absurd hi (by simp)
  | cons r rs ih =>
    intro k w i hi h1 h2
    cases i with
    | zero => simp [waits, Wait.disconnect, h1]
    | succ i =>
      have := ih (k + 1) (w.disconnect r d).2 i (by simpa using hi) (by simp [Wait.disconnect, h2])
        (by simp only [Wait.disconnect, h2]
            rw [h1, show k + 1 + 1 = k + 2 from rfl, fib, Nat.mul_add, Nat.add_comm])
      simp only [waits, List.getElem?_cons_succ, List.getElem_cons_succ]
      rw [this, show k + 1 + i = k + (i + 1) by omega]

/-- **C174** (waiting): the time before the `i`-th new attempt (from 0) is from 3/4 to 5/4 of the `i`-th
Fibonacci number times `min_retry_time`: the first one is made at once, and the times grow.  In units
of `1 / (4 * d)`, where `d` is the precision of the random numbers. -/
theorem C174_wait (d m : Nat) (rs : List Nat) (hr : ∀ r ∈ rs, r < d) (i : Nat) (hi : i < rs.length) :
    ∃ t, (waits d (Wait.start m) rs)[i]? = some t ∧ 3 * d * (m * fib i) ≤ t ∧ t ≤ 5 * d * (m * fib i) := by
  have h := waits_get d m rs 0 (Wait.start m) i hi (by simp [Wait.start, fib]) (by simp [Wait.start, fib])
  rw [Nat.zero_add] at h
  refine ⟨_, h, ?_, ?_⟩
  · have : rs[i] < d := hr _ (List.getElem_mem hi)
    rw [Nat.mul_comm]
    exact Nat.mul_le_mul_left _ (by omega)
  · rw [Nat.mul_comm (5 * d)]
    exact Nat.mul_le_mul_left _ (by omega)

theorem fib_mono (i : Nat) : fib i ≤ fib (i + 1) := by
  cases i with
  | zero => decide
  | succ i => rw [fib]; omega

/-- **C174** (growth): whatever the random numbers, the time waited grows by a fifth at least with every
two attempts, so the attempts do not flood a server. -/
theorem C174_growth (d m : Nat) (rs : List Nat) (hr : ∀ r ∈ rs, r < d) (i : Nat) (hi : i + 2 < rs.length) :
    ∃ t t', (waits d (Wait.start m) rs)[i]? = some t ∧ (waits d (Wait.start m) rs)[i + 2]? = some t' ∧ 6 * t ≤ 5 * t' := by
  obtain ⟨t, h1, -, h3⟩ := C174_wait d m rs hr i (by omega)
  obtain ⟨t', h1', h2', -⟩ := C174_wait d m rs hr (i + 2) hi
  refine ⟨t, t', h1, h1', ?_⟩
  have hf : 2 * fib i ≤ fib (i + 2) := by
    rw [fib]
    have := fib_mono i
    omega
  have hm : 3 * d * (m * (2 * fib i)) ≤ 3 * d * (m * fib (i + 2)) :=
    Nat.mul_le_mul_left _ (Nat.mul_le_mul_left _ hf)
  have e1 : 3 * d * (m * (2 * fib i)) = 6 * (d * (m * fib i)) := by
    rw [Nat.mul_left_comm m 2, Nat.mul_assoc, Nat.mul_left_comm d 2, ← Nat.mul_assoc 3 2]
  have e2 : 5 * d * (m * fib i) = 5 * (d * (m * fib i)) := Nat.mul_assoc _ _ _
  omega

/-- A URL for the examples: https://h:8443/a?q -/
def sample : Url := { kind := .https, host := some [104], port := some [56, 52, 52, 51], absPath := some [47, 97], query := some [113] }

example : Means sample 8443 :=
  .inr ⟨_, rfl, by simpa using Digits.more [56, 52, 52] 844 3 (by simpa using Digits.more [56, 52] 84 4 (by simpa using Digits.more [56] 8 4 (.one 8 (by omega)) (by omega)) (by omega)) (by omega)⟩

example : (setUrl {} sample).2.headers.map (·.1) = [sHost] ∧ (setUrl {} sample).2.requestUri = some [47, 97, 63, 113] ∧
    (setUrl {} sample).2.port = some 8443 := by decide +kernel

example : waits 4 (Wait.start 5) [0, 2, 3, 1, 0] = [0, 80, 70, 180, 300] := by decide +kernel

end Verif.Http.Target
