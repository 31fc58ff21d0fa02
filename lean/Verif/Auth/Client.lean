import Verif.Auth.Path
/-!
# Model of the use of credentials by `pyslet/http/client.py` (C82)

One request and the credentials of its `Client`, through a history of responses.  `Root` stands for what
`URI.get_canonical_root()` returns (rfc2396.py:1126-1145; C43 is about `canonicalize`).  All credentials are
`BasicCredentials`; the challenges are those `Challenge.list_from_str` can return for the scheme "Basic"
(C83).  Not modelled: other threads that share the client, the cookies of the request (C57-C60), the bodies.
-/
namespace Verif.Auth
open Uri (Str)

/-- An absolute URL, as far as `Credentials.test_url` and `ClientRequest.resend` look at it. -/
structure Url (Root : Type) where
  root : Root
  path : Str
  deriving DecidableEq

/-- `BasicCredentials`, auth.py:207-216.  `ident` stands for the identity of the object: `remove_credentials`
compares with `is`.  `realm` is `None` or a text; an empty one counts as `None` (auth.py:165). -/
structure Creds (Root : Type) where
  ident : Nat
  space : Option Root
  realm : Str
  prefixes : List (List Str)
  deriving DecidableEq

/-- The exceptions that occur. -/
inductive Exc where
  | attribute | index | value
  deriving DecidableEq, Repr

variable {Root : Type} [DecidableEq Root]

/-- `Credentials.match_challenge`, auth.py:149-168, for a challenge with scheme "Basic" and the protection space
`root`.  `Challenge` has no attribute `realm`: line 166 raises AttributeError. -/
def Creds.matchChallenge (c : Creds Root) (root : Root) : Except Exc Bool :=
  if c.space ≠ some root then .ok false
  else if c.realm ≠ [] then .error .attribute
  else .ok true

/-- `BasicCredentials.test_url`, auth.py:238-248. -/
def Creds.testUrl (c : Creds Root) (u : Url Root) : Except Exc Bool :=
  if c.space = some u.root then
    match testPath c.prefixes u.path with
    | some b => .ok b
    | none => .error .value
  else .ok false

/-- `find_credentials`, client.py:1605-1613. -/
def findCredentials (root : Root) : List (Creds Root) → Except Exc (Option (Creds Root))
  | [] => .ok none
  | c :: r =>
    match c.matchChallenge root with
    | .error e => .error e
    | .ok true => .ok (some c)
    | .ok false => findCredentials root r

/-- `find_credentials_by_url`, client.py:1615-1620. -/
def findByUrl (u : Url Root) : List (Creds Root) → Except Exc (Option (Creds Root))
  | [] => .ok none
  | c :: r =>
    match c.testUrl u with
    | .error e => .error e
    | .ok true => .ok (some c)
    | .ok false => findByUrl u r

/-- The loop of `remove_credentials`, client.py:1575-1577, from index `i`; `n` is the number of turns left.  The
list is changed in place: it is returned even if `IndexError` is raised. -/
def removeLoop (ident : Nat) : Nat → Nat → List (Creds Root) → List (Creds Root) × Option Exc
  | 0, _, l => (l, none)
  | n + 1, i, l =>
    match l[i]? with
    | none => (l, some .index)
    | some c => if c.ident = ident then removeLoop ident n (i + 1) (l.eraseIdx i) else removeLoop ident n (i + 1) l

/-- `remove_credentials`, client.py:1564-1577. -/
def removeCredentials (ident : Nat) (l : List (Creds Root)) : List (Creds Root) × Option Exc :=
  removeLoop ident l.length 0 l

/-- The value of the header "Authorization": the text of credentials, or the text "None", which is what
`set_authorization(None)` stores (messages.py:1193-1198: `str(None)`), or a value set by the user. -/
inductive Header (Root : Type) where
  | creds (c : Creds Root)
  | noneText
  | user
  deriving DecidableEq

/-- A `ClientRequest` and the `credentials` of its client. -/
structure State (Root : Type) where
  creds : List (Creds Root)
  url : Url Root
  /-- the method is GET or HEAD -/
  safe : Bool
  autoRedirect : Bool
  header : Option (Header Root)
  /-- `tried_credentials`, client.py:1728 -/
  tried : Option (Creds Root)
  deriving DecidableEq

/-- What a response says, as far as `finished` looks at it: the status, the number of "Basic" challenges, and
the location resolved against the request's URL (client.py:1968-1971). -/
structure Response (Root : Type) where
  status : Nat
  challenges : Nat
  location : Option (Url Root)
  deriving DecidableEq

/-- `send_header`, client.py:1851-1857: the state when the header is sent. -/
def State.sendHeader (s : State Root) : Except Exc (State Root) :=
  match s.header with
  | some _ => .ok s
  | none =>
    match findByUrl s.url s.creds with
    | .error e => .error e
    | .ok none => .ok s
    | .ok (some c) => .ok { s with header := some (.creds c) }

/-- `resend`, client.py:1788-1802: the state; the request is queued again. -/
def State.resend (s : State Root) (url : Option (Url Root)) : State Root :=
  match url with
  | none => s
  | some u => if s.url.root ≠ u.root then { s with header := some .noneText, url := u } else { s with url := u }

/-- Replaces the credentials of the given identity. -/
def setCreds (c : Creds Root) (l : List (Creds Root)) : List (Creds Root) :=
  l.map fun x => if x.ident = c.ident then c else x

/-- `finished`, client.py:1948-1959: what is done about the credentials that were tried. -/
def State.settle (s : State Root) (r : Response Root) : State Root × Option Exc :=
  match s.tried with
  | none => (s, none)
  | some c =>
    if r.status = 401 then
      match removeCredentials c.ident s.creds with
      | (l, some e) => ({ s with creds := l }, some e)
      | (l, none) => ({ s with creds := l, tried := none }, none)
    else
      match addSuccessPath c.prefixes s.url.path with
      | none => (s, some .value)
      | some p => ({ s with creds := setCreds { c with prefixes := p } s.creds, tried := none }, none)

/-- The loop over the challenges, client.py:1976-1981: the state and the number of resends so far. -/
def State.challengeLoop (s : State Root) : Nat → Nat → State Root × Nat × Option Exc
  | 0, k => (s, k, none)
  | n + 1, k =>
    match findCredentials s.url.root s.creds with
    | .error e => (s, k, some e)
    | .ok none => State.challengeLoop { s with tried := none } n k
    | .ok (some c) => State.challengeLoop { s with tried := some c, header := some (.creds c) } n (k + 1)

/-- `finished`, client.py:1937-1981: the state, how often the request is queued again, the exception. -/
def State.finished (s : State Root) (r : Response Root) : State Root × Nat × Option Exc :=
  match s.settle r with
  | (s, some e) => (s, 0, some e)
  | (s, none) =>
    if s.autoRedirect = true ∧ 300 ≤ r.status ∧ r.status ≤ 399 ∧ (r.status ≠ 302 ∨ s.safe = true) then
      match r.location with
      | some u => (s.resend (some u), 1, none)
      | none => (s, 0, none)
    else if r.status = 401 then s.challengeLoop r.challenges 0
    else (s, 0, none)

/-- The history of one request: it is sent, and while responses make the client queue it again it is sent again.
The result lists the URL and the "Authorization" header of every time it was sent, and the last state.  (A request
that is queued twice at once is followed once; `C83_one_challenge`: this does not happen.) -/
def State.run (s : State Root) : List (Response Root) → List (Url Root × Option (Header Root)) × State Root
  | [] => match s.sendHeader with
    | .error _ => ([], s)
    | .ok s => ([(s.url, s.header)], s)
  | r :: rs => match s.sendHeader with
    | .error _ => ([], s)
    | .ok s => match s.finished r with
      | (s', 0, _) => ([(s.url, s.header)], s')
      | (s', _ + 1, some _) => ([(s.url, s.header)], s')
      | (s', _ + 1, none) => ((s.url, s.header) :: (s'.run rs).1, (s'.run rs).2)

/-! ### Lemmas -/

theorem findCredentials_some {root : Root} {l : List (Creds Root)} {c : Creds Root}
    (h : findCredentials root l = .ok (some c)) : c ∈ l ∧ c.space = some root := by
  induction l with
  | nil => cases h
  | cons a l ih =>
    rw [findCredentials] at h
    split at h
    · cases h
    · rename_i hm
      cases h
      refine ⟨by simp, ?_⟩
      unfold Creds.matchChallenge at hm
      split at hm
      · cases hm
      · rename_i hs; exact Classical.not_not.mp hs
    · exact ⟨by simp [(ih h).1], (ih h).2⟩

theorem findByUrl_some {u : Url Root} {l : List (Creds Root)} {c : Creds Root}
    (h : findByUrl u l = .ok (some c)) : c ∈ l ∧ c.space = some u.root ∧ testPath c.prefixes u.path = some true := by
  induction l with
  | nil => cases h
  | cons a l ih =>
    rw [findByUrl] at h
    split at h
    · cases h
    · rename_i hm
      cases h
      unfold Creds.testUrl at hm
      split at hm
      · rename_i hs
        split at hm
        · rename_i ht; cases hm; exact ⟨by simp, hs, ht⟩
        · cases hm
      · cases hm
    · exact ⟨by simp [(ih h).1], (ih h).2⟩

/-- The credentials in the header are for the URL. -/
def State.Good (s : State Root) : Prop := ∀ c, s.header = some (.creds c) → c.space = some s.url.root

theorem sendHeader_good {s s' : State Root} (h : s.Good) (hs : s.sendHeader = .ok s') : s'.Good ∧ s'.url = s.url := by
  unfold State.sendHeader at hs
  split at hs
  · cases hs; exact ⟨h, rfl⟩
  · split at hs
    · cases hs
    · cases hs; exact ⟨h, rfl⟩
    · rename_i hf
      cases hs
      refine ⟨?_, rfl⟩
      intro c hc
      simp only [Option.some.injEq, Header.creds.injEq] at hc
      subst hc
      exact (findByUrl_some hf).2.1

theorem settle_keeps (s : State Root) (r : Response Root) : (s.settle r).1.header = s.header ∧ (s.settle r).1.url = s.url ∧
    (s.settle r).1.safe = s.safe ∧ (s.settle r).1.autoRedirect = s.autoRedirect := by
  unfold State.settle
  split
  · exact ⟨rfl, rfl, rfl, rfl⟩
  · split
    · split <;> exact ⟨rfl, rfl, rfl, rfl⟩
    · split <;> exact ⟨rfl, rfl, rfl, rfl⟩

theorem challengeLoop_good (n : Nat) : ∀ (s : State Root) (k : Nat), s.Good → (s.challengeLoop n k).1.Good := by
  induction n with
  | zero => intro s k h; exact h
  | succ n ih =>
    intro s k h
    rw [State.challengeLoop]
    split
    · exact h
    · exact ih _ _ h
    · rename_i hf
      apply ih
      intro c hc
      simp only [Option.some.injEq, Header.creds.injEq] at hc
      subst hc
      exact (findCredentials_some hf).2

theorem resend_good (s : State Root) (u : Option (Url Root)) (h : s.Good) : (s.resend u).Good := by
  unfold State.resend
  split
  · exact h
  · split
    · intro c hc; cases hc
    · rename_i hr
      intro c hc
      have := h c hc
      rw [Classical.not_not.mp hr] at this
      exact this

theorem finished_good (s : State Root) (r : Response Root) (h : s.Good) : (s.finished r).1.Good := by
  obtain ⟨h1, h2, -, -⟩ := settle_keeps s r
  have h' : (s.settle r).1.Good := by
    intro c hc
    rw [h1] at hc
    rw [h2]
    exact h c hc
  unfold State.finished
  split
  · rename_i s1 e he
    rw [he] at h'
    exact h'
  · rename_i s1 he
    rw [he] at h'
    split
    · split
      · exact resend_good _ _ h'
      · exact h'
    · split
      · exact challengeLoop_good _ _ _ h'
      · exact h'

/-! ### C82 -/

/-- **C82**: whatever the servers answer, and wherever they redirect the request, credentials are only sent to URLs
in their own protection space.  The user of the request has not set the header by hand, or has set something for
the URL it is first sent to. -/
theorem C82_own_space (rs : List (Response Root)) : ∀ (s : State Root),
    (∀ c, s.header = some (.creds c) → c.space = some s.url.root) →
    ∀ u c, (u, some (Header.creds c)) ∈ (s.run rs).1 → c.space = some u.root := by
  induction rs with
  | nil =>
    intro s h u c hm
    rw [State.run] at hm
    split at hm
    · cases hm
    · rename_i s' hs
      rw [List.mem_singleton, Prod.mk.injEq] at hm
      obtain ⟨h1, h2⟩ := hm
      rw [h1]
      exact (sendHeader_good h hs).1 c h2.symm
  | cons r rs ih =>
    intro s h u c hm
    rw [State.run] at hm
    split at hm
    · cases hm
    · rename_i s1 hs
      have hg := (sendHeader_good h hs).1
      have one : ∀ x, x ∈ [(s1.url, s1.header)] → x = (u, some (Header.creds c)) → c.space = some u.root := by
        intro x hx he
        rw [List.mem_singleton] at hx
        rw [hx, Prod.mk.injEq] at he
        rw [← he.1]
        exact hg c he.2
      have hf := finished_good s1 r hg
      split at hm
      · exact one _ hm rfl
      · exact one _ hm rfl
      · rename_i s2 k he
        rw [he] at hf
        rcases List.mem_cons.mp hm with hm | hm
        · exact one _ (by rw [← hm]; simp) rfl
        · exact ih s2 hf u c hm

/-- The user's own header is not sent to another server either. -/
theorem C82_user_header (rs : List (Response Root)) : ∀ (s : State Root) (root : Root),
    (s.header = some .user → s.url.root = root) →
    ∀ u, (u, some Header.user) ∈ (s.run rs).1 → u.root = root := by
  have send : ∀ (s s' : State Root), s.sendHeader = .ok s' → s'.url = s.url ∧ (s'.header = some .user → s.header = some .user) := by
    intro s s' hs
    unfold State.sendHeader at hs
    split at hs
    · cases hs; exact ⟨rfl, id⟩
    · split at hs
      · cases hs
      · cases hs; exact ⟨rfl, id⟩
      · cases hs; exact ⟨rfl, fun h => by cases h⟩
  have loop : ∀ n (s : State Root) k, (s.challengeLoop n k).1.url = s.url ∧
      ((s.challengeLoop n k).1.header = some .user → s.header = some .user) := by
    intro n
    induction n with
    | zero => intro s k; exact ⟨rfl, id⟩
    | succ n ih =>
      intro s k
      rw [State.challengeLoop]
      split
      · exact ⟨rfl, id⟩
      · exact ih _ _
      · exact ⟨(ih _ _).1, fun h => by have := (ih _ _).2 h; cases this⟩
  have fin : ∀ (s : State Root) r root, (s.header = some .user → s.url.root = root) →
      ((s.finished r).1.header = some .user → (s.finished r).1.url.root = root) := by
    intro s r root h
    obtain ⟨h1, h2, -, -⟩ := settle_keeps s r
    rw [← h1, ← h2] at h
    unfold State.finished
    split
    · rename_i he; rw [he] at h; exact h
    · rename_i s1 he
      rw [he] at h
      split
      · split
        · unfold State.resend
          dsimp only
          split
          · intro hh; cases hh
          · rename_i hr; intro hh; rw [← Classical.not_not.mp hr]; exact h hh
        · exact h
      · split
        · rw [(loop _ _ _).1]
          exact fun hh => h ((loop _ _ _).2 hh)
        · exact h
  induction rs with
  | nil =>
    intro s root h u hm
    rw [State.run] at hm
    split at hm
    · cases hm
    · rename_i s' hs
      rw [List.mem_singleton, Prod.mk.injEq] at hm
      rw [hm.1, (send s s' hs).1]
      exact h ((send s s' hs).2 hm.2.symm)
  | cons r rs ih =>
    intro s root h u hm
    rw [State.run] at hm
    split at hm
    · cases hm
    · rename_i s1 hs
      have hg : s1.header = some .user → s1.url.root = root := by
        intro hh
        rw [(send s s1 hs).1]
        exact h ((send s s1 hs).2 hh)
      have hf := fin s1 r root hg
      have one : (u, some Header.user) = (s1.url, s1.header) → u.root = root := by
        intro he
        rw [Prod.mk.injEq] at he
        rw [he.1]
        exact hg he.2.symm
      split at hm
      · exact one (List.mem_singleton.mp hm)
      · exact one (List.mem_singleton.mp hm)
      · rename_i s2 k he
        rw [he] at hf
        rcases List.mem_cons.mp hm with hm | hm
        · exact one hm
        · exact ih s2 root hf u hm

/-- **C82**: credentials sent before any challenge has been received are sent only for paths at or below the folder
of a document they were good for. -/
theorem C82_preemptive (s s' : State Root) (h : s.header = none) (hs : s.sendHeader = .ok s') (c : Creds Root)
    (hc : s'.header = some (.creds c)) : c ∈ s.creds ∧ c.space = some s.url.root ∧
      testPath c.prefixes s.url.path = some true := by
  unfold State.sendHeader at hs
  rw [h] at hs
  dsimp only at hs
  split at hs
  · cases hs
  · cases hs; rw [h] at hc; cases hc
  · rename_i hf
    cases hs
    simp only [Option.some.injEq, Header.creds.injEq] at hc
    subst hc
    exact findByUrl_some hf

/-! ### C82: refused credentials are not tried again -/

theorem removeLoop_sub (ident : Nat) (n : Nat) : ∀ (i : Nat) (l : List (Creds Root)), (removeLoop ident n i l).1.Sublist l := by
  induction n with
  | zero => intro i l; exact List.Sublist.refl _
  | succ n ih =>
    intro i l
    rw [removeLoop]
    split
    · exact List.Sublist.refl _
    · split
      · exact (ih _ _).trans (List.eraseIdx_sublist l i)
      · exact ih _ _

theorem removeLoop_shorter (ident : Nat) (n : Nat) : ∀ (i : Nat) (l : List (Creds Root)), l.length = i + n →
    (∃ c ∈ l.drop i, c.ident = ident) → (removeLoop ident n i l).1.length < l.length := by
  induction n with
  | zero =>
    rintro i l h ⟨c, hc, -⟩
    rw [List.drop_eq_nil_of_le (by omega)] at hc
    cases hc
  | succ n ih =>
    rintro i l h ⟨c, hc, he⟩
    have hi : i < l.length := by omega
    rw [removeLoop, List.getElem?_eq_getElem hi]
    dsimp only
    split
    · have := (removeLoop_sub ident n (i + 1) (l.eraseIdx i)).length_le
      rw [List.length_eraseIdx_of_lt hi] at this
      omega
    · rename_i hne
      rw [List.drop_eq_getElem_cons hi] at hc
      rcases List.mem_cons.mp hc with rfl | hc
      · exact absurd he hne
      · exact ih (i + 1) l (by omega) ⟨c, hc, he⟩

/-- Removing credentials that are there shortens the list, whether or not an exception is raised. -/
theorem remove_shorter {ident : Nat} {l : List (Creds Root)} (h : ∃ c ∈ l, c.ident = ident) :
    (removeCredentials ident l).1.length < l.length :=
  removeLoop_shorter ident l.length 0 l (by simp) (by simpa using h)

theorem removeLoop_index (ident : Nat) (n : Nat) : ∀ (i : Nat) (l : List (Creds Root)), l.length < i + n → n > 0 →
    (removeLoop ident n i l).2 = some .index := by
  induction n with
  | zero => intro i l _ hn; omega
  | succ n ih =>
    intro i l ha _
    rw [removeLoop]
    by_cases hl : i < l.length
    · rw [List.getElem?_eq_getElem hl]
      dsimp only
      have hlen' : (l.eraseIdx i).length = l.length - 1 := by rw [List.length_eraseIdx_of_lt hl]
      split
      · exact ih _ _ (by omega) (by omega)
      · exact ih _ _ (by omega) (by omega)
    · rw [List.getElem?_eq_none (by omega)]

theorem removeLoop_skip (ident : Nat) (n : Nat) : ∀ (pre l : List (Creds Root)), l.length = n →
    (∀ c ∈ l, c.ident ≠ ident) → removeLoop ident n pre.length (pre ++ l) = (pre ++ l, none) := by
  induction n with
  | zero => intro pre l _ _; rfl
  | succ n ih =>
    intro pre l hl h
    cases l with
    | nil => simp at hl
    | cons a l =>
      rw [removeLoop, List.getElem?_append_right (by simp)]
      simp only [Nat.sub_self, List.getElem?_cons_zero]
      rw [if_neg (h a (by simp))]
      have := ih (pre ++ [a]) l (by simpa using hl) (fun c hc => h c (by simp [hc]))
      simpa using this

theorem removeLoop_reach (ident : Nat) (c : Creds Root) (hc : c.ident = ident) (post : List (Creds Root)) :
    ∀ (a pre : List (Creds Root)), (∀ x ∈ a, x.ident ≠ ident) →
    removeLoop ident (a.length + 1 + post.length) pre.length (pre ++ a ++ c :: post) =
      removeLoop ident post.length (pre.length + a.length + 1) (pre ++ a ++ post) := by
  intro a
  induction a with
  | nil =>
    intro pre _
    simp only [List.length_nil, Nat.zero_add, Nat.add_zero, List.append_nil]
    rw [Nat.add_comm, removeLoop, List.getElem?_append_right (by simp)]
    simp only [Nat.sub_self, List.getElem?_cons_zero]
    rw [if_pos hc, List.eraseIdx_append_of_length_le (by simp)]
    simp
  | cons x a ih =>
    intro pre h
    have := ih (pre ++ [x]) (fun y hy => h y (by simp [hy]))
    have e : (x :: a).length + 1 + post.length = (a.length + 1 + post.length) + 1 := by simp; omega
    rw [e, removeLoop]
    have : (pre ++ x :: a ++ c :: post)[pre.length]? = some x := by
      rw [List.append_assoc, List.getElem?_append_right (by simp)]; simp
    rw [this]
    dsimp only
    rw [if_neg (h x (by simp))]
    have h2 := ih (pre ++ [x]) (fun y hy => h y (by simp [hy]))
    have e2 : (pre ++ [x]).length = pre.length + 1 := by simp
    rw [e2] at h2
    simp only [List.append_assoc, List.cons_append, List.nil_append, List.length_cons] at h2 ⊢
    rw [h2]
    congr 1
    omega

theorem removeLoop_nomatch (ident : Nat) (n : Nat) : ∀ (i : Nat) (l : List (Creds Root)), (∀ c ∈ l, c.ident ≠ ident) →
    (removeLoop ident n i l).1 = l := by
  induction n with
  | zero => intro i l _; rfl
  | succ n ih =>
    intro i l h
    rw [removeLoop]
    split
    · rfl
    · rename_i c hc
      rw [if_neg (h c (List.mem_of_getElem? hc))]
      exact ih _ _ h

/-- **C82**: `remove_credentials` removes an object that was added once and nothing else.  Partial: the call returns
only if the object was the last one added; otherwise IndexError is raised after the removal. -/
theorem C82_remove_partial (a post : List (Creds Root)) (c : Creds Root) (ha : ∀ x ∈ a, x.ident ≠ c.ident)
    (hp : ∀ x ∈ post, x.ident ≠ c.ident) :
    removeCredentials c.ident (a ++ c :: post) = (a ++ post, if post = [] then none else some .index) := by
  have key : removeCredentials c.ident (a ++ c :: post) = removeLoop c.ident post.length (a.length + 1) (a ++ post) := by
    have := removeLoop_reach c.ident c rfl post a [] ha
    simp only [List.nil_append, List.length_nil, Nat.zero_add] at this
    unfold removeCredentials
    rw [← this]
    congr 1
    simp
    omega
  rw [key, Prod.ext_iff]
  refine ⟨?_, ?_⟩
  · apply removeLoop_nomatch
    intro x hx
    rcases List.mem_append.mp hx with hx | hx
    · exact ha x hx
    · exact hp x hx
  · cases post with
    | nil => rfl
    | cons x post =>
      rw [if_neg (by simp)]
      exact removeLoop_index _ _ _ _ (by simp) (by simp)

/-- **C82**: `remove_credentials` ignores credentials that are not there. -/
theorem C82_remove_absent (l : List (Creds Root)) (ident : Nat) (h : ∀ x ∈ l, x.ident ≠ ident) :
    removeCredentials ident l = (l, none) := removeLoop_skip ident l.length [] l rfl h

/-- The credentials being tried are among those of the client. -/
def State.TriedIn (s : State Root) : Prop := ∀ c, s.tried = some c → ∃ x ∈ s.creds, x.ident = c.ident

/-- How many more refusals the request can survive. -/
def State.lives (s : State Root) : Nat := s.creds.length - (if s.tried.isSome then 1 else 0)

theorem sendHeader_keeps {s s' : State Root} (h : s.sendHeader = .ok s') : s'.creds = s.creds ∧ s'.tried = s.tried := by
  unfold State.sendHeader at h
  split at h
  · cases h; exact ⟨rfl, rfl⟩
  · split at h
    · cases h
    · cases h; exact ⟨rfl, rfl⟩
    · cases h; exact ⟨rfl, rfl⟩

/-- A refusal that makes the client send the request again costs a life. -/
theorem finished_lives (s s' : State Root) (r : Response Root) (k : Nat) (hr : r.status = 401) (hc : r.challenges ≤ 1)
    (h : s.TriedIn) (hf : s.finished r = (s', k + 1, none)) : s'.TriedIn ∧ s'.lives + 1 ≤ s.lives := by
  unfold State.finished at hf
  split at hf
  · cases hf
  · rename_i s1 hs1
    have key : s1.tried = none ∧ s1.creds.length ≤ s.lives := by
      unfold State.settle at hs1
      split at hs1
      · rename_i ht
        cases hs1
        exact ⟨ht, by simp [State.lives, ht]⟩
      · rename_i c ht
        rw [if_pos hr] at hs1
        split at hs1
        · cases hs1
        · rename_i l hl
          cases hs1
          have := remove_shorter (h c ht)
          rw [hl] at this
          refine ⟨rfl, ?_⟩
          simp only [State.lives, ht, Option.isSome_some, if_true]
          dsimp only at this ⊢
          omega
    rw [if_neg (by rw [hr]; omega), if_pos hr] at hf
    have hn : r.challenges = 0 ∨ r.challenges = 1 := by omega
    rcases hn with hn | hn
    · rw [hn] at hf; cases hf
    · rw [hn, State.challengeLoop] at hf
      split at hf
      · cases hf
      · cases hf
      · rename_i c hfc
        cases hf
        obtain ⟨hm, -⟩ := findCredentials_some hfc
        refine ⟨?_, ?_⟩
        · intro c' hc'
          cases hc'
          exact ⟨_, hm, rfl⟩
        · have hpos : 0 < s1.creds.length := List.length_pos_of_mem hm
          simp only [State.lives, Option.isSome_some, if_true]
          have := key.2
          simp only [State.lives] at this
          omega

/-- **C82**: credentials that are refused are not tried again: a request that meets nothing but refusals is sent at
most once without being asked for credentials, and once for each of the client's credentials. -/
theorem C82_refusals (rs : List (Response Root)) : ∀ (s : State Root), s.TriedIn →
    (∀ r ∈ rs, r.status = 401 ∧ r.challenges ≤ 1) → (s.run rs).1.length ≤ s.lives + 1 := by
  induction rs with
  | nil =>
    intro s _ _
    rw [State.run]
    split <;> simp
  | cons r rs ih =>
    intro s h hr
    rw [State.run]
    split
    · simp
    · rename_i s1 hs
      obtain ⟨e1, e2⟩ := sendHeader_keeps hs
      have h1 : s1.TriedIn := by unfold State.TriedIn; rw [e1, e2]; exact h
      have hl : s1.lives = s.lives := by unfold State.lives; rw [e1, e2]
      split
      · simp
      · simp
      · rename_i s2 k hf
        obtain ⟨h2, h3⟩ := finished_lives s1 s2 r k (hr r (by simp)).1 (hr r (by simp)).2 h1 hf
        have := ih s2 h2 fun x hx => hr x (by simp [hx])
        simp only [List.length_cons]
        omega

/-- A new request: `tried_credentials` is None, so it is sent at most once more than there are credentials. -/
theorem C82_new_request (s : State Root) (rs : List (Response Root)) (h : s.tried = none)
    (hr : ∀ r ∈ rs, r.status = 401 ∧ r.challenges ≤ 1) : (s.run rs).1.length ≤ s.creds.length + 1 := by
  have := C82_refusals rs s (by intro c hc; rw [h] at hc; cases hc) hr
  simpa [State.lives, h] using this

/-! ### C82: violations -/

/-- **C82** fails for the header itself: instead of removing "Authorization" when the request is redirected to
another server the client sends the text "None", and since the header is then set credentials for the other server
are not used. -/
theorem C82_none_header_violation :
    (State.run (⟨[⟨1, some 8, [], [[[]]]⟩], ⟨7, [47]⟩, true, true, none, none⟩ : State Nat)
      [⟨301, 0, some ⟨8, [47]⟩⟩]).1 = [(⟨7, [47]⟩, none), (⟨8, [47]⟩, some .noneText)] ∧
    (State.run (⟨[⟨1, some 8, [], [[[]]]⟩], ⟨8, [47]⟩, true, true, none, none⟩ : State Nat) []).1 =
      [(⟨8, [47]⟩, some (.creds ⟨1, some 8, [], [[[]]]⟩))] := by decide +kernel

/-- **C82** fails when credentials other than the last ones added are refused: IndexError. -/
theorem C82_remove_violation :
    removeCredentials 1 ([⟨1, some 8, [], []⟩, ⟨2, some 8, [], []⟩] : List (Creds Nat)) = ([⟨2, some 8, [], []⟩], some .index) ∧
    (State.finished (⟨[⟨1, some 7, [], []⟩, ⟨2, some 7, [], []⟩], ⟨7, [47]⟩, true, true, none, some ⟨1, some 7, [], []⟩⟩ : State Nat)
      ⟨401, 1, none⟩).2 = (0, some .index) := by decide +kernel

/-- **C82** fails for credentials with a realm: a challenge in their protection space raises AttributeError, whatever
its realm. -/
theorem C82_realm_violation (c : Creds Root) (root : Root) (hs : c.space = some root) (hr : c.realm ≠ [])
    (l : List (Creds Root)) : findCredentials root (c :: l) = .error .attribute := by
  rw [findCredentials, Creds.matchChallenge, if_neg (by simp [hs]), if_pos hr]

/-- **C82** fails for redirects: nothing stops a request that is redirected in a circle. -/
theorem C82_redirect_loop_violation (n : Nat) (u : Url Root) :
    (State.run (⟨[], u, true, true, none, none⟩ : State Root) (List.replicate n ⟨302, 0, some u⟩)).1.length = n + 1 := by
  induction n with
  | zero => rfl
  | succ n ih =>
    rw [List.replicate_succ, State.run]
    have h1 : State.sendHeader (⟨[], u, true, true, none, none⟩ : State Root) = .ok ⟨[], u, true, true, none, none⟩ := rfl
    have h2 : State.finished (⟨[], u, true, true, none, none⟩ : State Root) ⟨302, 0, some u⟩ =
        (⟨[], u, true, true, none, none⟩, 1, none) := by
      simp [State.finished, State.settle, State.resend]
    rw [h1]
    dsimp only
    rw [h2]
    simp [ih]

/-- **C82**: a request other than GET or HEAD is not sent again because of a status 302. -/
theorem C82_no_redirect (s : State Root) (r : Response Root) (hs : s.safe = false) (hr : r.status = 302) :
    (s.finished r).2.1 = 0 := by
  obtain ⟨-, -, h3, -⟩ := settle_keeps s r
  unfold State.finished
  split
  · rfl
  · rename_i s1 he
    rw [he] at h3
    have h4 : s1.safe = false := by rw [← hs]; exact h3
    rw [if_neg (by simp [hr, h4]), if_neg (by omega)]

/-- The theorems apply to a non-trivial history: a challenge is met with the second credentials, which are then
refused, and the request given up; and a redirect to another server drops the credentials. -/
example : (State.run (⟨[⟨1, some 8, [], []⟩, ⟨2, some 7, [], []⟩], ⟨7, [47]⟩, true, true, none, none⟩ : State Nat)
      [⟨401, 1, none⟩, ⟨401, 1, none⟩, ⟨401, 1, none⟩]).1 =
      [(⟨7, [47]⟩, none), (⟨7, [47]⟩, some (.creds ⟨2, some 7, [], []⟩))] ∧
    (State.run (⟨[⟨2, some 7, [], []⟩], ⟨7, [47, 120]⟩, true, true, none, none⟩ : State Nat)
      [⟨401, 1, none⟩, ⟨307, 0, some ⟨8, [47]⟩⟩, ⟨200, 0, none⟩]).1.map (fun x => x.1.root) = [7, 7, 8] := by decide +kernel

end Verif.Auth
