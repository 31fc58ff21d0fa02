import Verif.Web.C108
/-!
# C108: what goes wrong with sessions
-/
namespace Verif.Web
open Text (decStr decVal isDigit)

/-- The method of C107 verifies signatures. -/
def appOf (A : Alg) (toInt : Str → Option Nat) (ks : KeySet) (c : Cipher) (timeout : Int) (root : Str → Option Str) (appRoot : Str) : App where
  check s m := (checkSig A toInt ks c s m).2
  timeout := timeout
  root := root
  appRoot := appRoot

/-- What an attacker makes of a signature (key number, salt and hash) of `p ++ m`: one of `m`. -/
def forge (n : Nat) (salt h p m : Bytes) : Str :=
  decStr n ++ 45 :: ((salt ++ p).flatMap Sql.hexlify2 ++ 45 :: h.flatMap Sql.hexlify2) ++ 45 :: Uri.escapeData m

theorem forge_ok {A : Alg} (hA : Good A) {H : Bytes → Bytes → Bytes} (hH : A.hash = some H) (hb : ∀ k d, ∀ x ∈ H k d, x < 256)
    {toInt : Str → Option Nat} (hi : ReadsInt toInt) {K : Keys} {ks : KeySet} (hks : KeysOk A K ks) {c : Cipher} {i j : Nat}
    (hp : ProcOk K ks c j) (hij : i ≤ j) (hage : j ≤ i + 100) (salt p m : Bytes) (hs : ∀ x ∈ salt, x < 256) (hpb : ∀ x ∈ p, x < 256)
    (hm : ∀ x ∈ m, x < 256) (hne : m ≠ []) :
    (checkSig A toInt ks c (forge (K.num i) salt (H (K.key i) (salt ++ (p ++ m))) p m) none).2 = .val m := by
  obtain ⟨c'', _, hg⟩ := getCipher_ok hA K hks hp (i := i) hij hage
  have hu : Uri.unescapeData (Uri.escapeData m) = some m :=
    Uri.C18_round_trip m hm Uri.isReserved Uri.isAllowed (by intro c hc; exact Uri.isAllowed_ascii c hc)
  have hsp : ∀ x ∈ salt ++ p, x < 256 := by
    intro x hx
    rcases List.mem_append.1 hx with h | h
    · exact hs x h
    · exact hpb x h
  unfold checkSig forge
  rw [splitSig_ascii _ _ _ _ hsp (hb _ _)]
  dsimp only
  rw [hi, unhexlify_hex _ hsp, unhexlify_hex _ (hb _ _)]
  simp only [ne_eq, escape_ne hne, not_false_eq_true, if_true, hu, hg, hH]
  rw [← List.append_assoc, if_pos rfl]

theorem utf8_ascii (t : Str) (h : ∀ c ∈ t, c < 128) : t.flatMap Text.encodeChar = t := by
  induction t with
  | nil => rfl
  | cons c t ih =>
    rw [List.flatMap_cons, ih (fun x hx => h x (by simp [hx]))]
    have := h c (by simp)
    unfold Text.encodeChar
    rw [if_pos (by omega)]
    rfl

theorem utf8_split {a t : Str} {b : Bytes} (h : Text.utf8Encode (a ++ t) = some b) (ht : ∀ c ∈ t, c < 128) :
    ∃ p, Text.utf8Encode a = some p ∧ b = p ++ t := by
  unfold Text.utf8Encode at h ⊢
  split at h
  case isFalse => cases h
  rename_i hs
  have h := Option.some.inj h
  refine ⟨a.flatMap Text.encodeChar, ?_, ?_⟩
  · rw [if_pos]
    rw [List.all_append, Bool.and_eq_true] at hs
    exact hs.1
  · rw [← h, List.flatMap_append, utf8_ascii t ht]

theorem utf8_bytes {a : Str} {p : Bytes} (h : Text.utf8Encode a = some p) : ∀ x ∈ p, x < 256 := by
  unfold Text.utf8Encode at h
  split at h
  case isFalse => cases h
  rename_i hs
  cases h
  intro x hx
  obtain ⟨c, hc, hx⟩ := List.mem_flatMap.1 hx
  rw [List.all_eq_true] at hs
  exact Text.encodeChar_bytes c (by simpa using hs c hc) x hx

/-- Violation of C108: anybody can forge a session cookie.  A request without cookies, whose user agent is the text of
any session, is answered with a signature of (new session, address, user agent); moving the beginning of the message
to the salt gives a valid cookie for that session. -/
theorem C108_violation_forgery {A : Alg} (hA : Good A) {H : Bytes → Bytes → Bytes} (hH : A.hash = some H)
    (hb : ∀ k d, ∀ x ∈ H k d, x < 256) {toInt : Str → Option Nat} (hi : ReadsInt toInt)
    {K : Keys} {w : World} {log : List (Bytes × Str)} (h : History A K w log)
    (c : Cipher) (hc : c ∈ w.procs) (j : Nat) (hj : c.num = K.num j) (timeout : Int) (root : Str → Option Str) (appRoot : Str)
    (victim : Sess) (hsid : ∀ x ∈ victim.sid, x < 128 ∧ x ≠ 45) (hseen : TimeOk victim.seen)
    (fresh url : Str) (now : Int) (hnow : TimeOk now) :
    let app := appOf A toInt w.keys c timeout root appRoot
    ∃ agent s m, wrapper app fresh now ⟨false, [], false, [], agent, url, none, false⟩ = (.testCookies s m, .set s) ∧
      ∀ b i salt, Text.utf8Encode m = some b → i ≤ j → j ≤ i + 100 → (∀ x ∈ salt, x < 256) →
        ∃ p t, b = p ++ t ∧ Holds app (forge (K.num i) salt (H (K.key i) (salt ++ b)) p t) victim := by
  intro app
  obtain ⟨t, e1, e2, e3⟩ := C108_text victim (fun h => (hsid _ h).2 rfl) hseen
  obtain ⟨u, e4, _, _⟩ := showTime_ok now hnow
  have hascii : ∀ x ∈ t, x < 128 := by
    obtain ⟨v, f1, _, f2⟩ := showTime_ok victim.seen hseen
    unfold Sess.text at e1
    rw [f1] at e1
    cases e1
    intro x hx
    simp only [List.mem_append, List.mem_cons] at hx
    rcases hx with hx | hx | hx | hx | hx
    · exact (hsid x hx).1
    · omega
    · split at hx <;> omega
    · omega
    · rcases f2 x hx with h | h | h
      · simp only [isDigit, Bool.and_eq_true, decide_eq_true_eq] at h; omega
      · omega
      · omega
  have e5 : (⟨fresh, false, now⟩ : Sess).text = some (fresh ++ 45 :: 48 :: 45 :: u) := by
    unfold Sess.text; rw [e4]; rfl
  refine ⟨t, ⟨fresh, false, now⟩, fresh ++ 45 :: 48 :: 45 :: u ++ url ++ t, ?_, ?_⟩
  · unfold wrapper setSession
    simp only [List.all_nil, not_true_eq_false, if_false, ne_eq, Bool.false_eq_true, and_false]
    unfold sessionPage
    simp only [Bool.false_eq_true, if_false, e5]
  · intro b i salt hm h1 h2 hs
    obtain ⟨p, f1, f2⟩ := utf8_split hm hascii
    refine ⟨p, t, f2, t, t, ?_, ?_, e2, e3⟩
    · obtain ⟨hks, hprocs, _⟩ := history_ok hA h
      obtain ⟨q, hp⟩ := hprocs c hc
      have := proc_index hp hj
      subst this
      rw [f2]
      exact forge_ok hA hH hb hi hks hp h1 h2 salt p t hs (utf8_bytes f1) (fun x hx => by have := hascii x hx; omega) e2
    · have := Text.utf8Decode_flatMap t (fun c hc => by have := hascii c hc; unfold Text.Scalar; omega)
      rw [utf8_ascii t hascii] at this
      exact this

/-- A form that was sent after the time limit is still processed, in a new session. -/
theorem C108_violation_late_post (app : App) (fresh : Str) (now : Int) (r : Req) (s : Sess) (hc : r.cookie ≠ [])
    (ha : r.cookie.all (· < 128) = true) (ht : r.test = true) (hp : r.post = true) (h : Holds app r.cookie s)
    (he : s.established = true) (hlate : app.timeout < now - s.seen) (htok : r.token = s.sid) (hne : s.sid ≠ []) :
    wrapper app fresh now r = (.page ⟨fresh, false, now⟩, .set ⟨fresh, false, now⟩) := by
  unfold wrapper
  rw [(C108_continues app fresh now r s hc ha ht h he).2 hlate]
  dsimp only
  rw [if_pos hp, if_pos hc, cookie_of_holds h]
  dsimp only
  rw [if_neg]
  · unfold sessionPage; rw [if_pos ht]
  · simp only [Option.map_some, Option.getD_some, ne_eq]
    rw [htok]
    simp [hne]

/-- In the test of cookies, a cookie whose signature is wrong is an internal error, and the cookie is not removed. -/
theorem C108_violation_ctest (app : App) (fresh : Str) (now : Int) (r : Req) (ret s sig : Str) (q : Sess)
    (hq : r.query = some (ret, s, sig)) (ht : r.test = true) (hqs : querySession app fresh now ret s sig r.agent = some (some q))
    (hc : r.cookie ≠ []) (hbad : app.check r.cookie none = .valueError) :
    ctest app fresh now r = (.internal, .keep) := by
  unfold ctest
  rw [hq]
  dsimp only
  rw [if_neg (by simp [ht]), hqs]
  dsimp only
  rw [if_neg hc, hbad]
  dsimp only
  split <;> rfl

/-- A cookie with a character outside ASCII, or with a key number that is not known (any more), is an internal error for
every page, and the cookie is not removed. -/
theorem C108_violation_bad_cookie (app : App) (fresh : Str) (now : Int) (r : Req) :
    (r.cookie.all (· < 128) = false → wrapper app fresh now r = (.internal, .keep)) ∧
    (r.cookie ≠ [] → r.test = true → app.check r.cookie none = .runtimeError → wrapper app fresh now r = (.internal, .keep)) := by
  constructor
  · intro h
    unfold wrapper setSession
    rw [if_pos (by simp [h])]
  · intro h1 h2 h3
    unfold wrapper setSession
    split
    · rfl
    · rename_i s hs
      split at hs
      · cases hs
      · rw [if_pos ⟨h1, h2⟩] at hs
        unfold cookieSession at hs
        rw [h3] at hs
        cases hs

/-! ### An example -/

def demoApp : App := appOf (plain id) (fun s => some (decVal s)) [] (newCipher 0 [0]) 600 (fun _ => some [104]) [104]

/-- The session `ab`, established, seen 2001-09-09T01:46:40Z. -/
def demoSess : Sess := ⟨[97, 98], true, 1000000000⟩

/-- Its cookie. -/
def demoCookie : Bytes :=
  match demoSess.text with
  | some t => match (asciiSign (plain id) (newCipher 0 [0]) 0 [1, 2, 3, 4] t).2 with
    | .val s => s
    | _ => []
  | none => []

/-- A form, ten minutes later and one second after that. -/
example : wrapper demoApp [99] 1000000600 ⟨true, demoCookie, true, [97, 98], [], [], none, false⟩ =
      (.page ⟨[97, 98], true, 1000000600⟩, .set ⟨[97, 98], true, 1000000600⟩) ∧
    wrapper demoApp [99] 1000000601 ⟨true, demoCookie, true, [97, 98], [], [], none, false⟩ =
      (.page ⟨[99], false, 1000000601⟩, .set ⟨[99], false, 1000000601⟩) ∧
    wrapper demoApp [99] 1000000600 ⟨true, demoCookie, true, [97, 99], [], [], none, false⟩ =
      (.error 403, .set ⟨[97, 98], true, 1000000600⟩) := by
  decide +kernel

end Verif.Web
