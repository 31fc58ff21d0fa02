/-!
# C114: the keys of a test session

Model of `TestSessionState.event_update`
(`/repo/pyslet/qtiv2/variables.py` 2197-2249).  Time is counted in whole
microseconds (the code prints the float time with six decimals and adds
0.000001), and the digest of the salt and the printed time is an arbitrary
function `H` of the time; the theorems say what they need of it.
-/

namespace Verif.Form

abbrev Key := List Nat

/-- `SessionKeyExpired` and `SessionKeyMismatch`. -/
inductive KeyErr
  | expired | mismatch
  deriving DecidableEq, Repr

/-- The part of the session state that deals with keys (variables.py:2197-2224). -/
structure Keys where
  key : Key
  prev : Key
  used : List Key
  t : Int
  deriving DecidableEq, Repr

/-- `event_update(key_check)` when the clock shows `now`
(variables.py:2227-2249); returns the new state and the time elapsed. -/
def eventUpdate (H : Int → Key) (k : Keys) (check : Key) (now : Int) :
    Except KeyErr (Keys × Int) :=
  if k.key ≠ check then
    if check ∈ k.used then .error .expired else .error .mismatch
  else if k.key ≠ [] then
    let dt := now - k.t
    if dt = 0 then
      .ok ({ key := H (now + 1), prev := k.key, used := k.key :: k.used, t := now + 1 }, 1)
    else
      .ok ({ key := H now, prev := k.key, used := k.key :: k.used, t := now }, dt)
  else .ok ({ k with key := H now, t := now }, 0)

/-- The state of a new session: the constructor calls `event_update('')`
(variables.py:2197-2224). -/
def newKeys (H : Int → Key) (now : Int) : Keys :=
  { key := H now, prev := [], used := [], t := now }

/-- The constructor's call is the modelled function. -/
theorem newKeys_eq (H : Int → Key) (now : Int) (t0 : Int) :
    eventUpdate H { key := [], prev := [], used := [], t := t0 } [] now =
      .ok (newKeys H now, 0) := rfl

/-- An event presented to the session: the key and the time of the clock. -/
structure KeyEvent where
  key : Key
  now : Int

/-- The session after one event: a refused event raises before anything is
changed. -/
def keyStep (H : Int → Key) (k : Keys) (e : KeyEvent) : Keys :=
  match eventUpdate H k e.key e.now with
  | .ok (k, _) => k
  | .error _ => k

/-- The session after a history of events, refused ones included. -/
def keyRun (H : Int → Key) (k : Keys) : List KeyEvent → Keys
  | [] => k
  | e :: es => keyRun H (keyStep H k e) es

/-- What the events of a history were answered with. -/
def answers (H : Int → Key) (k : Keys) : List KeyEvent → List (Key × Option KeyErr)
  | [] => []
  | e :: es =>
    (e.key, match eventUpdate H k e.key e.now with
      | .ok _ => none
      | .error x => some x) :: answers H (keyStep H k e) es

/-- The keys accepted in a history, in order. -/
def accepted (H : Int → Key) (k : Keys) (es : List KeyEvent) : List Key :=
  ((answers H k es).filter (fun a => a.2 = none)).map Prod.fst

/-- The keys that were current at some point of the history, in order. -/
def issued (H : Int → Key) (k : Keys) : List KeyEvent → List Key
  | [] => []
  | e :: es =>
    match eventUpdate H k e.key e.now with
    | .ok (k', _) => k'.key :: issued H k' es
    | .error _ => issued H k es

theorem keyStep_key_ne {H : Int → Key} (hH : ∀ t, H t ≠ []) {k : Keys} (h : k.key ≠ [])
    (e : KeyEvent) : (keyStep H k e).key ≠ [] := by
  unfold keyStep eventUpdate
  split
  · rename_i k' d hk
    split at hk
    · split at hk <;> cases hk
    · dsimp only at hk
      split at hk <;> (simp only [Except.ok.injEq, Prod.mk.injEq] at hk; rw [← hk.1]; exact hH _)
  · exact h

theorem update_ok {H : Int → Key} {k : Keys} (h : k.key ≠ []) {c : Key} {now : Int} {k' : Keys}
    {d : Int} (hu : eventUpdate H k c now = .ok (k', d)) :
    c = k.key ∧ k'.used = k.key :: k.used ∧ k'.prev = k.key ∧ k'.key = H k'.t ∧
      ((now ≠ k.t ∧ k'.t = now ∧ d = now - k.t) ∨ (now = k.t ∧ k'.t = now + 1 ∧ d = 1)) := by
  unfold eventUpdate at hu
  split at hu
  · split at hu <;> cases hu
  · rename_i hc
    have hc' : k.key = c := by simpa using hc
    dsimp only at hu
    split at hu
    · rename_i hd
      simp only [Except.ok.injEq, Prod.mk.injEq] at hu
      obtain ⟨e1, e2⟩ := hu
      subst e1
      exact ⟨hc'.symm, rfl, rfl, rfl, Or.inr ⟨by omega, rfl, e2.symm⟩⟩
    · rename_i hd
      simp only [Except.ok.injEq, Prod.mk.injEq] at hu
      obtain ⟨e1, e2⟩ := hu
      subst e1
      exact ⟨hc'.symm, rfl, rfl, rfl, Or.inl ⟨by omega, rfl, e2.symm⟩⟩

/-- C114. An event is accepted just when it presents the current key; otherwise
it is refused as expired just when the key was used before, and the session is as
it was. -/
theorem C114_key_check (H : Int → Key) (k : Keys) (e : KeyEvent) :
    ((∃ r, eventUpdate H k e.key e.now = .ok r) ↔ e.key = k.key) ∧
    (eventUpdate H k e.key e.now = .error .expired ↔ e.key ≠ k.key ∧ e.key ∈ k.used) ∧
    (eventUpdate H k e.key e.now = .error .mismatch ↔ e.key ≠ k.key ∧ e.key ∉ k.used) ∧
    (e.key ≠ k.key → keyStep H k e = k) := by
  unfold keyStep eventUpdate
  by_cases hk : k.key = e.key
  · have hn : ¬ (k.key ≠ e.key) := by simp [hk]
    rw [if_neg hn]
    by_cases hz : k.key ≠ []
    · rw [if_pos hz]
      dsimp only
      by_cases hd : e.now - k.t = 0
      · rw [if_pos hd]; simp [hk]
      · rw [if_neg hd]; simp [hk]
    · rw [if_neg hz]; simp [hk]
  · have hk' : e.key ≠ k.key := fun h => hk h.symm
    rw [if_pos hk]
    by_cases hu : e.key ∈ k.used
    · simp [hu, hk']
    · simp [hu, hk']

/-- C114. In every history the accepted keys are, one after the other, the keys the session
issued: each accepted event presents the key issued by the accepted event before
it, and the keys remembered as used are exactly the accepted ones. -/
theorem C114_key_chain (H : Int → Key) (hH : ∀ t, H t ≠ []) (es : List KeyEvent) :
    ∀ (k : Keys), k.key ≠ [] →
    accepted H k es = (k.key :: issued H k es).dropLast ∧
    (keyRun H k es).used = (accepted H k es).reverse ++ k.used ∧
    (keyRun H k es).key = (k.key :: issued H k es).getLast (by simp) := by
  induction es with
  | nil => intro k _; simp [accepted, answers, issued, keyRun]
  | cons e es ih =>
    intro k h
    have hne := keyStep_key_ne hH h e
    obtain ⟨i1, i2, i3⟩ := ih (keyStep H k e) hne
    unfold accepted at i1 i2
    cases hu : eventUpdate H k e.key e.now with
    | error x =>
      have hs : keyStep H k e = k := by unfold keyStep; rw [hu]
      rw [hs] at i1 i2 i3
      have ha : accepted H k (e :: es) = accepted H k es := by
        simp only [accepted, answers, hu, hs]
        simp
      have hi : issued H k (e :: es) = issued H k es := by
        rw [issued, hu]
      refine ⟨?_, ?_, ?_⟩
      · rw [ha, hi]; exact i1
      · rw [ha, keyRun, hs]; exact i2
      · simp only [keyRun, hs, hi]; exact i3
    | ok r =>
      obtain ⟨k', d⟩ := r
      have hs : keyStep H k e = k' := by unfold keyStep; rw [hu]
      obtain ⟨h1, h2, -⟩ := update_ok h hu
      rw [hs] at i1 i2 i3
      have ha : accepted H k (e :: es) = k.key :: accepted H k' es := by
        simp only [accepted, answers, hu, hs]
        simp [h1]
      have hi : issued H k (e :: es) = k'.key :: issued H k' es := by
        rw [issued, hu]
      refine ⟨?_, ?_, ?_⟩
      · rw [ha, hi, List.dropLast_cons_of_ne_nil (by simp), ← i1]; rfl
      · rw [ha, keyRun, hs, i2, h2]; simp [accepted]
      · simp only [keyRun, hs, hi, i3]
        exact (List.getLast_cons (a := k.key) (by simp)).symm

/-- The clock readings of a history, the first later than `t`, go up. -/
def Increasing (t : Int) : List KeyEvent → Prop
  | [] => True
  | e :: es => t < e.now ∧ Increasing e.now es

/-- The invariant: all used keys come from times before the last event, which
is at most one microsecond after the clock. -/
def KeysOk (H : Int → Key) (k : Keys) (clock : Int) : Prop :=
  k.key = H k.t ∧ k.t ≤ clock + 1 ∧ (∀ x ∈ k.used, ∃ t, x = H t ∧ t < k.t) ∧ k.used.Nodup

theorem keysOk_step {H : Int → Key} (hH : ∀ t, H t ≠ []) (hi : ∀ a b, H a = H b → a = b)
    {k : Keys} {clock : Int} (h : KeysOk H k clock) (e : KeyEvent) (hc : clock < e.now) :
    KeysOk H (keyStep H k e) e.now := by
  unfold keyStep
  cases hu : eventUpdate H k e.key e.now with
  | error x =>
    obtain ⟨a, b, c, d⟩ := h
    exact ⟨a, by dsimp only; omega, c, d⟩
  | ok r =>
    obtain ⟨k', d⟩ := r
    obtain ⟨a, b, c, dd⟩ := h
    obtain ⟨-, h2, -, h4, h5⟩ := update_ok (a ▸ hH _) hu
    have hlt : k.t < k'.t := by omega
    dsimp only
    refine ⟨h4, by omega, ?_, ?_⟩
    · intro x hx
      rw [h2] at hx
      rcases List.mem_cons.1 hx with e1 | e1
      · exact ⟨k.t, by rw [e1, a], hlt⟩
      · obtain ⟨t, q1, q2⟩ := c x e1
        exact ⟨t, q1, by omega⟩
    · rw [h2, List.nodup_cons]
      refine ⟨?_, dd⟩
      intro hm
      obtain ⟨t, q1, q2⟩ := c _ hm
      have := hi _ _ (a ▸ q1)
      omega

theorem keysOk_run {H : Int → Key} (hH : ∀ t, H t ≠ []) (hi : ∀ a b, H a = H b → a = b)
    (es : List KeyEvent) : ∀ (k : Keys) (clock : Int), KeysOk H k clock → Increasing clock es →
    ∃ c, KeysOk H (keyRun H k es) c := by
  induction es with
  | nil => intro k c h _; exact ⟨c, h⟩
  | cons e es ih =>
    intro k c h hc
    exact ih _ _ (keysOk_step hH hi h e hc.1) hc.2

/-- C114. When the clock moves on between events and the digest does not
collide, no key is accepted twice: the accepted keys of a session's history are
all different, and presenting any of them again is answered with
SessionKeyExpired. -/
theorem C114_key_once (H : Int → Key) (hH : ∀ t, H t ≠ []) (hi : ∀ a b, H a = H b → a = b)
    (start : Int) (es : List KeyEvent) (hc : Increasing start es) :
    (accepted H (newKeys H start) es).Nodup ∧
    ∀ x ∈ accepted H (newKeys H start) es, ∀ now,
      eventUpdate H (keyRun H (newKeys H start) es) x now = .error .expired := by
  have h0 : KeysOk H (newKeys H start) start :=
    ⟨rfl, by simp [newKeys]; omega, by simp [newKeys], .nil⟩
  obtain ⟨c, hk⟩ := keysOk_run hH hi es _ _ h0 hc
  obtain ⟨-, hu, -⟩ := C114_key_chain H hH es (newKeys H start) (hH _)
  have hu' : (keyRun H (newKeys H start) es).used =
      (accepted H (newKeys H start) es).reverse := by rw [hu]; simp [newKeys]
  have hnd := hk.2.2.2
  rw [hu'] at hnd
  refine ⟨(List.reverse_perm _).nodup_iff.1 hnd, ?_⟩
  intro x hx now
  have hm : x ∈ (keyRun H (newKeys H start) es).used := by rw [hu']; simpa using hx
  obtain ⟨t, q1, q2⟩ := hk.2.2.1 x hm
  have hne : x ≠ (keyRun H (newKeys H start) es).key := by
    rw [hk.1, q1]
    intro h
    have := hi _ _ h
    omega
  exact ((C114_key_check H _ ⟨x, now⟩).2.1).2 ⟨hne, hm⟩

/-- C114, violated. When three events fall into the same microsecond of the
clock, the third gives the session the key it had at the start: a key that
was used already is accepted again, and the elapsed time is negative. -/
theorem C114_same_tick_violated (H : Int → Key) (hH : ∀ t, H t ≠ []) (T : Int) :
    let k0 := newKeys H T
    ∃ k1 k2 d, eventUpdate H k0 (H T) T = .ok (k1, 1) ∧
      eventUpdate H k1 (H (T + 1)) T = .ok (k2, -1) ∧
      H T ∈ k2.used ∧ eventUpdate H k2 (H T) T = .ok d := by
  intro k0
  refine ⟨{ key := H (T + 1), prev := H T, used := [H T], t := T + 1 },
    { key := H T, prev := H (T + 1), used := [H (T + 1), H T], t := T },
    ({ key := H (T + 1), prev := H T, used := [H T, H (T + 1), H T], t := T + 1 }, 1),
    ?_, ?_, ?_, ?_⟩
  · simp [k0, newKeys, eventUpdate, hH]
  · have : T - (T + 1) = -1 := by omega
    simp [eventUpdate, hH, this]
  · simp
  · simp [eventUpdate, hH]

/-- A digest for the examples. -/
def sampleH (t : Int) : Key := [1, t.natAbs, if t < 0 then 1 else 0]

example : (∀ t, sampleH t ≠ []) ∧ ∀ a b, sampleH a = sampleH b → a = b := by
  refine ⟨by simp [sampleH], ?_⟩
  intro a b h
  simp only [sampleH, List.cons.injEq, true_and, and_true] at h
  obtain ⟨h1, h2⟩ := h
  split at h2 <;> split at h2 <;> omega

/-- A history with a replay and a forged key. -/
def sampleEvents : List KeyEvent :=
  [⟨sampleH 5, 6⟩, ⟨sampleH 5, 7⟩, ⟨[9], 8⟩, ⟨sampleH 6, 9⟩]

example : answers sampleH (newKeys sampleH 5) sampleEvents =
    [(sampleH 5, none), (sampleH 5, some .expired), ([9], some .mismatch), (sampleH 6, none)] := by
  decide +kernel

example : Increasing 5 sampleEvents := by simp [sampleEvents, Increasing]

end Verif.Form
