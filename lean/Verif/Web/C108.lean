import Verif.Web.Session
/-!
# C108: theorems about sessions
-/
namespace Verif.Web
open Iso (TimePoint Date fromUnixTime timePoint)
open Text (decStr)

/-! ### Texts of sessions -/

theorem split_step (a r : Str) (h : 45 ∉ a) : Http.splitByte 45 (a ++ 45 :: r) = a :: Http.splitByte 45 r := by
  induction a with
  | nil => rw [List.nil_append, Http.splitByte, if_pos rfl]
  | cons c a ih =>
    rw [List.cons_append, Http.splitByte, if_neg (fun e => h (by simp [e])), ih (fun e => h (by simp [e]))]

theorem split_last (a : Str) (h : 45 ∉ a) : Http.splitByte 45 a = [a] := by
  induction a with
  | nil => rfl
  | cons c a ih =>
    rw [Http.splitByte, if_neg (fun e => h (by simp [e])), ih (fun e => h (by simp [e]))]

theorem fmt_digits (n : Int) (h : 0 ≤ n) : ∀ c ∈ Iso.fmtInt 2 n, Text.isDigit c = true := by
  intro c hc
  unfold Iso.fmtInt at hc
  rw [if_neg (by omega)] at hc
  exact Text.decPad_isDigit _ _ c hc

theorem showTime_ok (n : Int) (h : TimeOk n) : ∃ t, showTime n = some t ∧ readTime t = some n ∧
    ∀ c ∈ t, Text.isDigit c = true ∨ c = 84 ∨ c = 90 := by
  obtain ⟨d, c, hd, hc, _, _, _, e1, e2⟩ := Iso.C16_round_trip n h.1 h.2
  obtain ⟨⟨t, e3, e4⟩, _⟩ := Iso.C17_time_point_round_trip d hd c hc .utc trivial true true
  refine ⟨t, ?_, ?_, ?_⟩
  · unfold showTime
    rw [e1]
    exact e3
  · unfold readTime
    rw [e4]
    exact e2
  · have e5 : (timePoint d c .utc).string Date.calendarString true .none true =
        some (Iso.fmtInt 2 (d.y / 100) ++ Iso.fmtInt 2 (d.y % 100) ++ Iso.fmtInt 2 d.m ++ Iso.fmtInt 2 d.d ++ [84] ++
          (Iso.fmtInt 2 c.h ++ Iso.fmtInt 2 c.m ++ Iso.fmtInt 2 c.s ++ [90])) := rfl
    rw [e5] at e3
    cases e3
    obtain ⟨a1, a2, a3, a4, a5, a6⟩ := hd
    obtain ⟨b1, b2, b3, b4, b5, b6, b7⟩ := hc
    intro x hx
    simp only [List.mem_append, List.mem_singleton] at hx
    rcases hx with ((((hx | hx) | hx) | hx) | hx) | ((hx | hx) | hx) | hx
    · exact Or.inl (fmt_digits _ (by omega) x hx)
    · exact Or.inl (fmt_digits _ (by omega) x hx)
    · exact Or.inl (fmt_digits _ (by omega) x hx)
    · exact Or.inl (fmt_digits _ (by omega) x hx)
    · exact Or.inr (Or.inl hx)
    · exact Or.inl (fmt_digits _ (by omega) x hx)
    · exact Or.inl (fmt_digits _ (by omega) x hx)
    · exact Or.inl (fmt_digits _ (by omega) x hx)
    · exact Or.inr (Or.inr hx)

/-- C108: a session is read back from its text. -/
theorem C108_text (s : Sess) (hs : 45 ∉ s.sid) (ht : TimeOk s.seen) :
    ∃ t, s.text = some t ∧ t ≠ [] ∧ ∀ fresh now, Sess.parse fresh now t = some s := by
  obtain ⟨u, h1, h2, h3⟩ := showTime_ok s.seen ht
  have hu : 45 ∉ u := by
    intro h
    have := h3 _ h
    revert this; decide
  refine ⟨_, by unfold Sess.text; rw [h1]; rfl, by simp, ?_⟩
  intro fresh now
  unfold Sess.parse
  rw [if_neg (by simp)]
  have e : ∀ b : Nat, b ≠ 45 → Http.splitByte 45 (s.sid ++ 45 :: b :: 45 :: u) = [s.sid, [b], u] := by
    intro b hb
    rw [split_step _ _ hs, show b :: 45 :: u = [b] ++ 45 :: u from rfl, split_step _ _ (by simp; omega), split_last _ hu]
  rcases s with ⟨sid, est, seen⟩
  cases est
  · simp only [Bool.false_eq_true, if_false]
    rw [e 48 (by omega)]
    dsimp only
    rw [h2]; rfl
  · simp only [if_true]
    rw [e 49 (by omega)]
    dsimp only
    rw [h2]; rfl

/-! ### Which session a request has -/

theorem parse_ne {f f' : Str} {n n' : Int} {t : Str} (h : t ≠ []) : Sess.parse f n t = Sess.parse f' n' t := by
  unfold Sess.parse
  rw [if_neg h, if_neg h]

theorem cookie_of_holds {app : App} {c : Bytes} {s : Sess} (h : Holds app c s) (fresh : Str) (now : Int) :
    cookieSession app fresh now c = some (some s) := by
  obtain ⟨m, t, h1, h2, h3, h4⟩ := h
  unfold cookieSession
  rw [h1]
  dsimp only
  rw [h2, Option.bind_some, h4]

theorem utf8_nonempty {m : Bytes} {t : Str} (h : Text.utf8Decode m = some t) (hm : m ≠ []) : t ≠ [] := by
  intro e
  subst e
  have := Text.utf8Encode_decode m [] h
  rw [show Text.utf8Encode [] = some [] from rfl] at this
  exact hm (Option.some.inj this).symm

/-- A cookie with a valid signature holds a session, or it is the signature of the empty text, which makes a new
session. -/
theorem holds_of_cookie {app : App} {c : Bytes} {s : Sess} {fresh : Str} {now : Int}
    (h : cookieSession app fresh now c = some (some s)) :
    Holds app c s ∨ (app.check c none = .val [] ∧ s = ⟨fresh, false, now⟩) := by
  unfold cookieSession at h
  split at h
  · rename_i m hm
    have h := Option.some.inj h
    by_cases hne : m = []
    · subst hne
      rw [show Text.utf8Decode [] = some [] by decide +kernel, Option.bind_some] at h
      cases h
      exact Or.inr ⟨hm, rfl⟩
    left
    cases ht : Text.utf8Decode m with
    | none => rw [ht] at h; cases h
    | some t =>
      rw [ht, Option.bind_some] at h
      have hne := utf8_nonempty ht hne
      exact ⟨m, t, hm, ht, hne, fun f n => by rw [← h]; exact parse_ne hne⟩
  · cases h
  · cases h

/-- C108: an established session goes on, if it was seen within the time limit. -/
theorem C108_continues (app : App) (fresh : Str) (now : Int) (r : Req) (s : Sess) (hc : r.cookie ≠ [])
    (ha : r.cookie.all (· < 128) = true) (ht : r.test = true) (h : Holds app r.cookie s) (he : s.established = true) :
    (now - s.seen ≤ app.timeout → setSession app fresh now r = some { s with seen := now }) ∧
    (app.timeout < now - s.seen → setSession app fresh now r = some ⟨fresh, false, now⟩) := by
  unfold setSession
  rw [if_neg (by simp [ha]), if_pos ⟨hc, ht⟩, cookie_of_holds h]
  dsimp only
  rw [he]
  simp only [if_true]
  refine ⟨fun h => by rw [if_neg (by omega)], fun h => by rw [if_pos (by omega)]⟩

/-- C108: a session that is not established becomes so, with a new identifier, if it was begun within two minutes. -/
theorem C108_establishes (app : App) (fresh : Str) (now : Int) (r : Req) (s : Sess) (hc : r.cookie ≠ [])
    (ha : r.cookie.all (· < 128) = true) (ht : r.test = true) (h : Holds app r.cookie s) (he : s.established = false) :
    (now - s.seen ≤ 120 → setSession app fresh now r = some ⟨fresh, true, now⟩) ∧
    (120 < now - s.seen → setSession app fresh now r = some ⟨fresh, false, now⟩) := by
  unfold setSession
  rw [if_neg (by simp [ha]), if_pos ⟨hc, ht⟩, cookie_of_holds h]
  dsimp only
  rw [he]
  simp only [Bool.false_eq_true, if_false]
  refine ⟨fun h => by rw [if_neg (by omega)], fun h => by rw [if_pos (by omega)]⟩

/-- C108: the session of a request is new and not established, or was established just now with a new identifier, or is
the established session in a cookie with a valid signature, seen within the time limit. -/
theorem C108_session (app : App) (fresh : Str) (now : Int) (r : Req) (s : Sess)
    (h : setSession app fresh now r = some s) :
    s.seen = now ∧
    ((s.sid = fresh ∧ s.established = false) ∨
     (s.sid = fresh ∧ s.established = true ∧ ((∃ s0, Holds app r.cookie s0 ∧ s0.established = false ∧ now - s0.seen ≤ 120) ∨
       app.check r.cookie none = .val [])) ∨
     (s.established = true ∧ ∃ s0, Holds app r.cookie s0 ∧ s0.established = true ∧ s0.sid = s.sid ∧ now - s0.seen ≤ app.timeout)) := by
  unfold setSession at h
  split at h
  · cases h
  split at h
  · split at h
    · cases h
    · cases h; exact ⟨rfl, Or.inl ⟨rfl, rfl⟩⟩
    · rename_i s0 hs0
      have hh := holds_of_cookie hs0
      split at h
      · rename_i he
        split at h
        · cases h; exact ⟨rfl, Or.inl ⟨rfl, rfl⟩⟩
        · rename_i ht
          cases h
          rcases hh with hh | ⟨_, hh⟩
          · exact ⟨rfl, Or.inr (Or.inr ⟨he, s0, hh, he, rfl, by omega⟩)⟩
          · rw [hh] at he; cases he
      · rename_i he
        split at h
        · cases h; exact ⟨rfl, Or.inl ⟨rfl, rfl⟩⟩
        · rename_i ht
          cases h
          rcases hh with hh | ⟨hh, _⟩
          · exact ⟨rfl, Or.inr (Or.inl ⟨rfl, rfl, Or.inl ⟨s0, hh, by simpa using he, by omega⟩⟩)⟩
          · exact ⟨rfl, Or.inr (Or.inl ⟨rfl, rfl, Or.inr hh⟩)⟩
  · cases h; exact ⟨rfl, Or.inl ⟨rfl, rfl⟩⟩

/-! ### Pages -/

/-- C108: a page is made for the session of the request, only when the client has the test cookie, and the client gets
that session as its cookie. -/
theorem C108_page (app : App) (fresh : Str) (now : Int) (r : Req) (s : Sess) (k : SetCookie)
    (h : wrapper app fresh now r = (.page s, k)) : setSession app fresh now r = some s ∧ r.test = true ∧ k = .set s := by
  have key : ∀ s', sessionPage s' r = .page s → s' = s ∧ r.test = true := by
    intro s' h
    unfold sessionPage at h
    split at h
    · rename_i ht; cases h; exact ⟨rfl, ht⟩
    · split at h <;> cases h
  unfold wrapper at h
  split at h
  · cases h
  rename_i s' hs
  split at h
  · split at h
    · cases h
    · dsimp only at h
      split at h
      · cases h
      · obtain ⟨h1, h2⟩ := Prod.mk.inj h
        obtain ⟨h3, h4⟩ := key s' h1
        subst h3
        exact ⟨hs, h4, h2.symm⟩
  · obtain ⟨h1, h2⟩ := Prod.mk.inj h
    obtain ⟨h3, h4⟩ := key s' h1
    subst h3
    exact ⟨hs, h4, h2.symm⟩

/-- C108: a page is made for a POST only if the token in the form is the identifier in a cookie with a valid
signature (a token cannot be the key that is generated for this request). -/
theorem C108_csrf (app : App) (fresh : Str) (now : Int) (r : Req) (s : Sess) (k : SetCookie)
    (hp : r.post = true) (hf : r.token ≠ fresh) (h : wrapper app fresh now r = (.page s, k)) :
    ∃ s0, Holds app r.cookie s0 ∧ s0.sid = r.token ∧ r.token ≠ [] := by
  unfold wrapper at h
  split at h
  · cases h
  rename_i s' hs
  rw [if_pos hp] at h
  split at h
  · cases h
  rename_i m hm
  dsimp only at h
  split at h
  · cases h
  rename_i htok
  have h1 : r.token ≠ [] := fun e => htok (Or.inl e)
  have h2 : r.token = (m.map (·.sid)).getD [] := Classical.not_not.1 fun e => htok (Or.inr e)
  split at hm
  case isFalse => cases hm; exact absurd h2 h1
  cases m with
  | none => exact absurd h2 h1
  | some s0 =>
    rcases holds_of_cookie hm with hh | ⟨_, hh⟩
    · exact ⟨s0, hh, h2.symm, h1⟩
    · rw [hh] at h2; exact absurd h2 hf

/-- C108: what is put in the address when cookies are tested is a new session that is not established; a session of a
client with the test cookie is never sent that way. -/
theorem C108_test_new (app : App) (fresh : Str) (now : Int) (r : Req) (s : Sess) (m : Str) (k : SetCookie)
    (h : wrapper app fresh now r = (.testCookies s m, k)) :
    s = ⟨fresh, false, now⟩ ∧ r.test = false ∧ k = .set s ∧ ∃ t, s.text = some t ∧ m = t ++ r.url ++ r.agent := by
  have key : ∀ s', sessionPage s' r = .testCookies s m → s' = s ∧ r.test = false ∧ ∃ t, s.text = some t ∧ m = t ++ r.url ++ r.agent := by
    intro s' h
    unfold sessionPage at h
    split at h
    · cases h
    · rename_i ht
      split at h
      · rename_i t ht'; cases h; exact ⟨rfl, by simpa using ht, t, ht', rfl⟩
      · cases h
  have hnew : ∀ s', setSession app fresh now r = some s' → r.test = false → s' = ⟨fresh, false, now⟩ := by
    intro s' h ht
    unfold setSession at h
    split at h
    · cases h
    · rw [if_neg (by simp [ht])] at h
      cases h; rfl
  unfold wrapper at h
  split at h
  · cases h
  rename_i s' hs
  split at h
  · split at h
    · cases h
    · dsimp only at h
      split at h
      · cases h
      · obtain ⟨h1, h2⟩ := Prod.mk.inj h
        obtain ⟨h3, h4, h5⟩ := key s' h1
        subst h3
        exact ⟨hnew _ hs h4, h4, h2.symm, h5⟩
  · obtain ⟨h1, h2⟩ := Prod.mk.inj h
    obtain ⟨h3, h4, h5⟩ := key s' h1
    subst h3
    exact ⟨hnew _ hs h4, h4, h2.symm, h5⟩

/-! ### Redirects -/

theorem checkRedirect_root {app : App} {p : Str} (h : checkRedirect app p = true) : app.root p = some app.appRoot := by
  unfold checkRedirect at h
  simp only [ne_eq, decide_eq_true_eq] at h
  exact h.2

theorem querySession_ok {app : App} {fresh : Str} {now : Int} {ret s sig agent : Str} {q : Sess}
    (h : querySession app fresh now ret s sig agent = some (some q)) :
    q.established = false ∧ Sess.parse fresh now s = some q ∧
    ∃ m m', Text.utf8Encode (s ++ ret ++ agent) = some m ∧ app.check sig (some m) = .val m' := by
  unfold querySession at h
  split at h
  · cases h
  rename_i m hm
  split at h
  · rename_i m' hm'
    split at h
    · cases h
    · rename_i q' hq'
      split at h
      · cases h
      · rename_i he
        cases h
        exact ⟨by simpa using he, hq', m, m', hm, hm'⟩
  · cases h
  · cases h

/-- C108: after the test of cookies, a client is sent back only to a page of the application, and only if the query has
a valid signature for this path and user agent, and the cookie holds a session with the same identifier; neither is
established (the query does not know the key that is generated for this request). -/
theorem C108_ctest (app : App) (fresh : Str) (now : Int) (r : Req) (path : Str) (k : SetCookie)
    (hf : ∀ p s sig q, r.query = some (p, s, sig) → Sess.parse fresh now s = some q → q.sid ≠ fresh) (h : ctest app fresh now r = (.redirect path, k)) :
    app.root path = some app.appRoot ∧ r.test = true ∧
    ∃ s sig m m' q c, r.query = some (path, s, sig) ∧ Text.utf8Encode (s ++ path ++ r.agent) = some m ∧ app.check sig (some m) = .val m' ∧
      Sess.parse fresh now s = some q ∧ q.established = false ∧
      Holds app (if r.cookie = [] then missing else r.cookie) c ∧ c.sid = q.sid ∧ c.established = false := by
  unfold ctest at h
  split at h
  · cases h
  rename_i ret s sig hq
  split at h
  · cases h
  rename_i ht
  split at h
  · cases h
  · cases h
  rename_i q hqs
  dsimp only at h
  generalize (if r.cookie = [] then missing else r.cookie) = c0 at h ⊢
  split at h
  · cases h
  split at h
  case h_2 => cases h
  rename_i m hm
  split at h
  · cases h
  rename_i c hc
  split at h
  · cases h
  rename_i hce
  split at h
  · cases h
  rename_i hsid
  split at h
  · cases h
  rename_i hred
  split at h
  · cases h
  cases h
  obtain ⟨e1, e2, m1, m2, e3, e4⟩ := querySession_ok hqs
  have hh : Holds app c0 c := by
    rcases holds_of_cookie (app := app) (c := c0) (s := c) (fresh := fresh) (now := now) (by
      unfold cookieSession
      rw [hm]
      dsimp only
      rw [hc]) with hh | ⟨_, hh⟩
    · exact hh
    · rw [hh] at hsid
      exact absurd (Classical.not_not.1 hsid).symm (hf _ _ _ q hq e2)
  exact ⟨checkRedirect_root (by simpa using hred), by simpa using ht, s, sig, m1, m2, q, c, hq, e3, e4, e2, e1, hh,
    by simpa using hsid, by simpa using hce⟩

/-- C108: from a new window, a client is sent back only to a page of the application, and only if the query has a valid
signature for this path and user agent, of a session that is not established. -/
theorem C108_wlaunch (app : App) (fresh : Str) (now : Int) (r : Req) (path : Str) (k : SetCookie)
    (h : wlaunch app fresh now r = (.redirect path, k)) :
    app.root path = some app.appRoot ∧ r.test = true ∧
    ∃ s sig m m' q, r.query = some (path, s, sig) ∧ Text.utf8Encode (s ++ path ++ r.agent) = some m ∧ app.check sig (some m) = .val m' ∧
      Sess.parse fresh now s = some q ∧ q.established = false := by
  unfold wlaunch at h
  split at h
  · cases h
  rename_i ret s sig hq
  split at h
  · cases h
  · cases h
  rename_i q hqs
  split at h
  · cases h
  rename_i hred
  split at h
  · cases h
  rename_i ht
  split at h
  · cases h
  cases h
  obtain ⟨e1, e2, m1, m2, e3, e4⟩ := querySession_ok hqs
  exact ⟨checkRedirect_root (by simpa using hred), by simpa using ht, s, sig, m1, m2, q, hq, e3, e4, e2, e1⟩

/-- C108: a cookie that a request sets never makes a session established except by the rules of `C108_session`. -/
theorem C108_cookie (app : App) (fresh : Str) (now : Int) (r : Req) (s : Sess) (reply : Reply)
    (h : wrapper app fresh now r = (reply, .set s) ∨ ctest app fresh now r = (reply, .set s) ∨ wlaunch app fresh now r = (reply, .set s)) :
    setSession app fresh now r = some s ∨ s.established = false := by
  rcases h with h | h | h
  · left
    unfold wrapper at h
    split at h
    · cases h
    rename_i s' hs
    repeat' split at h
    all_goals first | (cases h; exact hs) | skip
    all_goals
      dsimp only at h
      repeat' split at h
      all_goals cases h; exact hs
  · left
    unfold ctest at h
    repeat' split at h
    all_goals first | (cases h; assumption) | (cases h; done) | skip
    all_goals
      dsimp only at h
      repeat' split at h
      all_goals first | (cases h; assumption) | (cases h; done)
  · unfold wlaunch at h
    split at h
    · cases h
    split at h
    · cases h
    · cases h
    rename_i q hqs
    split at h
    · cases h
    split at h
    · cases h; exact Or.inr (querySession_ok hqs).1
    split at h
    · cases h
    · rename_i hs
      cases h; exact Or.inl hs

end Verif.Web
