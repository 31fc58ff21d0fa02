import Verif.Cli.ConnInv
/-!
# C144, C145: theorems about one connection of an HTTP client
-/
namespace Verif.Cli

/-- Every history. -/
def AnyL (_ : Line) (_ : LEv) : Prop := True

/-- **C144**: when a connection is lost, a request that is not idempotent is only sent again if not one byte of it has ever been sent. -/
theorem C144_at_most_once {S : Reqs} {s s' : Line} {e : LEv} (h : LReach S AnyL s) (hl : LLegal s e) (he : lineStep S s e = some s') (r : Nat)
    (hr : s.requeued r < s'.requeued r) : S.idem r = true ∨ s.bytesOf r = 0 :=
  (lineStep_inv (lreach_inv h) hl he).2 r hr

/-- **C144**: a request is sent again at most `max_retries` times: it is started at most that many times more than the application asked
for. -/
theorem C144_bounded {S : Reqs} {s : Line} (h : LReach S AnyL s) (r : Nat) : s.requeued r ≤ S.max r ∧ s.tries r ≤ s.asked r + S.max r := by
  have hi := lreach_inv h
  have h1 := (hi.req r).2.1
  have h2 := hi.tries r
  exact ⟨h1, by omega⟩

/-- **C144**: no request is lost: what has been asked for and is not on its way has been reported as finished, as often as it was asked for. -/
theorem C144_nothing_lost {S : Reqs} {s : Line} (h : LReach S AnyL s) (r : Nat) (hp : ¬ s.pend r) : s.asked r ≤ s.fin r := by
  rcases (lreach_inv h).lost r with a | a
  · exact absurd a hp
  · exact a

/-- **C145**: the responses received belong to the requests in the order in which these were started; the ones still expected to the
rest. -/
theorem C145_in_order {S : Reqs} {s : Line} (h : LReach S AnyL s) : s.started = s.answered.map (·.1) ++ s.resp := (lreach_inv h).order

/-- **C145**: a request that is not idempotent is only started when everything sent before has been answered. -/
theorem C145_not_pipelined {S : Reqs} {s s' : Line} (h : LReach S AnyL s) (he : lineStep S s .start = some s') (r : Nat) (rs : List Nat)
    (hq : s.queue = r :: rs) (hi : S.idem r = false) : s.started = s.answered.map (·.1) ∧ s'.started = s.started ++ [r] := by
  have ho := C145_in_order h
  simp only [lineStep, hq] at he
  split at he
  · next hg =>
    rw [Bool.and_eq_true, hi, Bool.false_or, Bool.and_eq_true, List.isEmpty_iff] at hg
    rw [hg.2.1, List.append_nil] at ho
    cases he
    exact ⟨ho, rfl⟩
  · cases he

/-! ## Histories in which no response arrives before the request has been sent -/

/-- The bytes of a request. -/
def Reqs.msg (S : Reqs) (r : Nat) : Bytes := S.head r ++ (S.body r).flatten

structure WInv (S : Reqs) (s : Line) : Prop where
  isOpen : s.mode ≠ .closeWait
  wire : s.wire ++ s.buffer ++ s.rest.flatten = (s.started.map S.msg).flatten
  rest : s.cur = none → s.rest = []
  cur : ∀ r, s.cur = some r → r ∈ s.resp
  status : ∀ r, s.pend r → s.status r = 0
  fin : ∀ r, s.fin r ≤ s.asked r
  pend : ∀ r, s.pend r → s.fin r + 1 ≤ s.asked r

theorem winv_init (S : Reqs) : WInv S (Line.init S) := by
  constructor <;> simp [Line.init, Line.fin, Line.pend]

/-- `close`: what is on its way is queued again or finished. -/
theorem closeLine_winv {S : Reqs} {s : Line} (h : LInv S s) (hw : WInv S s) (err : Bool) : WInv S (closeLine S err s) := by
  obtain ⟨d1, d2, d3, d4, d5, d6, d7, -, -, -, -, -⟩ := dropCur_inv h
  have df : (dropCur S s).finished = s.finished ∧ (dropCur S s).status = s.status := by
    unfold dropCur
    split
    · next r hc =>
      have := hw.status r (.inr (.inr hc))
      simp [disconnect, this]
    · exact ⟨rfl, rfl⟩
  obtain ⟨l, f, st, h1, h2, h3, h4, h5⟩ := closeLoop_spec err (dropCur S s).resp true (dropCur S s)
  rw [d3] at h3 h4 h5
  rw [df.2] at h4 h5
  have heq : closeLine S err s = { dropCur S s with queue := s.queue ++ l, status := st, finished := s.finished ++ f, requeued := fun r => s.requeued r + l.count r, resp := [], rest := [], buffer := [], buffered := 0, sent := 0, mode := .ready, wire := [], started := [], answered := [] } := by
    unfold closeLine
    dsimp only
    rw [h1]
    simp only [d2, d4, df.1]
  have hin : ∀ r ∈ l, r ∈ s.resp := by
    intro r hm
    have := List.count_pos_iff.mpr hm
    exact List.count_pos_iff.mp (by have := h3 r; omega)
  have cnt : ∀ r, s.resp.count r ≤ 1 := fun r => List.nodup_iff_count_le_one.mp h.rNodup r
  rw [heq]
  constructor
  · simp
  · rfl
  · intro _; rfl
  · intro r hr; dsimp only at hr; rw [d1] at hr; cases hr
  · intro r hr
    simp only [Line.pend, d1, List.not_mem_nil, or_false, reduceCtorEq] at hr
    dsimp only
    rcases List.mem_append.mp hr with a | a
    · rw [h4 r (h.disj r a).1]; exact hw.status r (.inl a)
    · rw [h5 h.rNodup r a]; exact hw.status r (.inr (.inl (hin r a)))
  · intro r
    simp only [Line.fin, List.map_append, List.count_append, d7]
    have e := h3 r
    have c := cnt r
    have a := hw.fin r
    simp only [Line.fin] at a
    by_cases hm : r ∈ s.resp
    · have b := hw.pend r (.inr (.inl hm))
      simp only [Line.fin] at b
      omega
    · rw [List.count_eq_zero.mpr hm] at e
      omega
  · intro r hr
    simp only [Line.pend, d1, List.not_mem_nil, or_false, reduceCtorEq] at hr
    simp only [Line.fin, List.map_append, List.count_append, d7]
    have e := h3 r
    have c := cnt r
    rcases List.mem_append.mp hr with a | a
    · have b := hw.pend r (.inl a)
      simp only [Line.fin] at b
      rw [List.count_eq_zero.mpr (h.disj r a).1] at e
      omega
    · have b := hw.pend r (.inr (.inl (hin r a)))
      simp only [Line.fin] at b
      have := List.count_pos_iff.mpr a
      omega

theorem lineStep_winv {S : Reqs} {s s' : Line} (h : LInv S s) (hw : WInv S s) {e : LEv} (hl : LLegal s e) (hn : NoEarly s e)
    (he : lineStep S s e = some s') : WInv S s' := by
  cases e with
  | queue r =>
    cases he
    have hp : ¬ s.pend r := hl
    have pd : ∀ x, Line.pend { s with queue := s.queue ++ [r], status := upd s.status r 0, asked := upd s.asked r (s.asked r + 1) } x →
        x = r ∨ s.pend x := by
      intro x hx
      rcases hx with hx | hx
      · rcases List.mem_append.mp hx with hx | hx
        · exact .inr (.inl hx)
        · exact .inl (List.mem_singleton.mp hx)
      · exact .inr (.inr hx)
    refine ⟨hw.isOpen, hw.wire, hw.rest, hw.cur, ?_, ?_, ?_⟩
    · intro x hx
      simp only [upd]
      split
      · rfl
      · next hne => exact hw.status x ((pd x hx).resolve_left hne)
    · intro x
      simp only [upd]
      have := hw.fin x
      split
      · next e => subst e; exact Nat.le_succ_of_le this
      · exact this
    · intro x hx
      simp only [upd]
      split
      · next e => subst e; exact Nat.succ_le_succ (hw.fin x)
      · next hne => exact hw.pend x ((pd x hx).resolve_left hne)
  | start =>
    simp only [lineStep] at he
    split at he
    · cases he
    · next r rs hq =>
      split at he
      · next hg =>
        cases he
        rw [Bool.and_eq_true, beq_iff_eq] at hg
        have hcur := h.ready (.inl hg.1)
        have hbuf := h.idle hcur
        have hrest := hw.rest hcur
        have pd : ∀ x, (startReq S { s with queue := rs } r).pend x → s.pend x := by
          intro x hx
          rcases hx with hx | hx | hx
          · exact .inl (by rw [hq]; exact List.mem_cons_of_mem _ hx)
          · rcases List.mem_append.mp hx with hx | hx
            · exact .inr (.inl hx)
            · rw [List.mem_singleton] at hx; subst hx; exact .inl (by rw [hq]; simp)
          · cases hx; exact .inl (by rw [hq]; simp)
        refine ⟨?_, ?_, ?_, ?_, fun x hx => hw.status x (pd x hx), hw.fin, fun x hx => hw.pend x (pd x hx)⟩
        · simp only [startReq]; split <;> simp
        · have := hw.wire
          rw [hbuf, hrest] at this
          simp only [List.append_nil, List.flatten_nil] at this
          simp [startReq, hbuf, this, Reqs.msg]
        · intro e; cases e
        · intro x hx; cases hx; simp [startReq]
      · cases he
  | body =>
    simp only [lineStep] at he
    split at he
    · next r0 c cs hc hrest =>
      split at he
      · next hg =>
        cases he
        rw [Bool.and_eq_true, beq_iff_eq, List.isEmpty_iff] at hg
        refine ⟨hw.isOpen, ?_, ?_, hw.cur, hw.status, hw.fin, hw.pend⟩
        · have := hw.wire
          rw [hg.2, hrest] at this
          simpa using this
        · intro e; dsimp only at e; rw [hc] at e; cases e
      · cases he
    · cases he
  | bodyEnd =>
    simp only [lineStep] at he
    split at he
    · next r0 hc hrest =>
      split at he
      · next hg =>
        cases he
        have hst := hw.status r0 (.inr (.inr hc))
        have hin := hw.cur r0 hc
        have pd : ∀ x, Line.pend { disconnect S s r0 with cur := none, mode := .ready } x → s.pend x := by
          intro x hx
          rcases hx with hx | hx | hx
          · exact .inl hx
          · exact .inr (.inl hx)
          · cases hx
        refine ⟨by simp, hw.wire, fun _ => hrest, ?_, fun x hx => hw.status x (pd x hx), ?_, ?_⟩
        · intro x hx; cases hx
        · intro x
          have := hw.fin x
          simpa [Line.fin, disconnect, hst] using this
        · intro x hx
          have := hw.pend x (pd x hx)
          simpa [Line.fin, disconnect, hst] using this
      · cases he
    · cases he
  | send n =>
    simp only [lineStep] at he
    split at he
    · next r0 hc =>
      split at he
      · next hg =>
        cases he
        refine ⟨hw.isOpen, ?_, hw.rest, hw.cur, hw.status, hw.fin, hw.pend⟩
        rw [← hw.wire]
        simp only [List.append_assoc]
        rw [← List.append_assoc (s.buffer.take n), List.take_append_drop]
      · cases he
    · cases he
  | cont =>
    simp only [lineStep] at he
    split at he
    · next r rs hr =>
      split at he
      · cases he; exact ⟨by simp, hw.wire, hw.rest, hw.cur, hw.status, hw.fin, hw.pend⟩
      · cases he; exact ⟨hw.isOpen, hw.wire, hw.rest, hw.cur, hw.status, hw.fin, hw.pend⟩
    · cases he
  | contTimeout =>
    simp only [lineStep] at he
    split at he
    · cases he; exact ⟨by simp, hw.wire, hw.rest, hw.cur, hw.status, hw.fin, hw.pend⟩
    · cases he
  | line k =>
    simp only [lineStep] at he
    split at he
    · cases he; exact ⟨hw.isOpen, hw.wire, hw.rest, hw.cur, hw.status, hw.fin, hw.pend⟩
    · cases he
  | final k keep =>
    simp only [lineStep] at he
    split at he
    · next r rs hr =>
      split at he
      · next hk =>
        have hc : s.cur ≠ some r := hn r (by rw [hr]; rfl)
        have hli := (lineStep_inv h (e := .final k true) trivial (s' := finalResp S k true s r) (by simp only [lineStep, hr, if_pos hk])).1
        cases he
        have hnd := h.rNodup
        rw [hr, List.nodup_cons] at hnd
        have hrq : r ∉ s.queue := fun hm => (h.disj r hm).1 (by rw [hr]; simp)
        unfold finalResp at hli ⊢
        dsimp only at hli ⊢
        rw [if_neg hc] at hli ⊢
        unfold popResponse at hli ⊢
        dsimp only at hli ⊢
        rw [hr, List.tail_cons] at hli ⊢
        have hopen : (rs.isEmpty && s.mode == Mode.closeWait) = false := by
          have : (s.mode == Mode.closeWait) = false := by simpa using hw.isOpen
          rw [this, Bool.and_false]
        rw [hopen] at hli ⊢
        simp only [Bool.or_false, Bool.not_true, Bool.false_eq_true, if_false] at hli ⊢
        have key : WInv S { s with status := upd s.status r k, seen := startNext (upd s.seen r (some k)) rs, finished := s.finished ++ [(r, k)], answered := s.answered ++ [(r, k)], resp := rs } := by
          have pd : ∀ x, Line.pend { s with status := upd s.status r k, seen := startNext (upd s.seen r (some k)) rs, finished := s.finished ++ [(r, k)], answered := s.answered ++ [(r, k)], resp := rs } x → s.pend x ∧ x ≠ r := by
            intro x hx
            rcases hx with hx | hx | hx
            · exact ⟨.inl hx, fun e => hrq (e ▸ hx)⟩
            · exact ⟨.inr (.inl (by rw [hr]; exact List.mem_cons_of_mem _ hx)), fun e => hnd.1 (e ▸ hx)⟩
            · exact ⟨.inr (.inr hx), fun e => hc (e ▸ hx)⟩
          refine ⟨hw.isOpen, hw.wire, hw.rest, ?_, ?_, ?_, ?_⟩
          · intro x hx
            have := hw.cur x hx
            rw [hr] at this
            rcases List.mem_cons.mp this with rfl | this
            · exact absurd hx hc
            · exact this
          · intro x hx
            obtain ⟨a, b⟩ := pd x hx
            simp only [upd, if_neg b]
            exact hw.status x a
          · intro x
            by_cases hx : x = r
            · subst hx
              have := hw.pend x (.inr (.inl (by rw [hr]; simp)))
              simpa [Line.fin] using this
            · have := hw.fin x
              have hx' : ¬ r = x := fun e => hx e.symm
              simpa [Line.fin, hx'] using this
          · intro x hx
            obtain ⟨a, b⟩ := pd x hx
            have := hw.pend x a
            have hx' : ¬ r = x := fun e => b e.symm
            simpa [Line.fin, hx'] using this
        split
        · exact closeLine_winv hli key false
        · exact key
      · cases he
    · cases he
  | eof =>
    simp only [lineStep] at he
    split at he
    · cases he
    · cases he; exact closeLine_winv h hw false
  | fail =>
    simp only [lineStep] at he
    split at he
    · cases he
    · cases he; exact closeLine_winv h hw true

theorem lreach_winv {S : Reqs} {s : Line} (h : LReach S NoEarly s) : WInv S s := by
  induction h with
  | init => exact winv_init S
  | step hr hl hn he ih => exact lineStep_winv (lreach_inv hr) ih hl hn he

/-- **C144**: every request the application has asked for is reported as finished exactly once for each time it was asked for.  Partial:
no response arrives before the request has been sent. -/
theorem C144_exactly_once_partial {S : Reqs} {s : Line} (h : LReach S NoEarly s) (r : Nat) :
    (s.pend r → s.asked r = s.fin r + 1) ∧ (¬ s.pend r → s.asked r = s.fin r) := by
  have hi := lreach_inv h
  have hw := lreach_winv h
  refine ⟨?_, ?_⟩
  · intro hp
    have := hw.pend r hp
    have := hi.lost' r
    omega
  · intro hp
    have h1 := hw.fin r
    have h2 : s.asked r ≤ s.fin r := by
      rcases hi.lost r with a | a
      · exact absurd a hp
      · exact a
    omega

/-- **C145**: the bytes sent, and those about to be sent, are the requests, complete, one after the other.  Partial: no response arrives
before the request has been sent. -/
theorem C145_wire_partial {S : Reqs} {s : Line} (h : LReach S NoEarly s) :
    s.wire ++ s.buffer ++ s.rest.flatten = (s.started.map S.msg).flatten ∧ (s.cur = none → s.wire = (s.started.map S.msg).flatten) := by
  have hi := lreach_inv h
  have hw := lreach_winv h
  refine ⟨hw.wire, ?_⟩
  intro hc
  have := hw.wire
  rw [hi.idle hc, hw.rest hc] at this
  simpa using this

/-- **C145**: the n-th response is reported to the n-th request started. -/
theorem C145_matched_partial {S : Reqs} {s s' : Line} (h : LReach S NoEarly s) (k : Nat) (keep : Bool) (hn : NoEarly s (.final k keep))
    (he : lineStep S s (.final k keep) = some s') :
    ∃ r more, s.started[s.answered.length]? = some r ∧ s'.finished = s.finished ++ (r, k) :: more ∧ (keep = true → more = []) := by
  have hi := lreach_inv h
  have hw := lreach_winv h
  simp only [lineStep] at he
  split at he
  · next r rs hr =>
    split at he
    · next hk =>
      have hc : s.cur ≠ some r := hn r (by rw [hr]; rfl)
      have hst : s.started[s.answered.length]? = some r := by
        rw [hi.order, hr]
        simp
      cases he
      unfold finalResp
      dsimp only
      rw [if_neg hc]
      unfold popResponse
      dsimp only
      have hopen : ∀ b : Bool, (b && s.mode == Mode.closeWait) = false := by
        intro b
        have : (s.mode == Mode.closeWait) = false := by simpa using hw.isOpen
        rw [this, Bool.and_false]
      rw [hopen, Bool.or_false]
      split
      · next hkeep =>
        simp only [closeLine]
        obtain ⟨l, f, st, h1, -⟩ := closeLoop_spec false (dropCur S { s with status := upd s.status r k, seen := startNext (upd s.seen r (some k)) s.resp.tail, finished := s.finished ++ [(r, k)], answered := s.answered ++ [(r, k)], resp := s.resp.tail }).resp true (dropCur S { s with status := upd s.status r k, seen := startNext (upd s.seen r (some k)) s.resp.tail, finished := s.finished ++ [(r, k)], answered := s.answered ++ [(r, k)], resp := s.resp.tail })
        rw [h1]
        dsimp only
        have : ∃ g, (dropCur S { s with status := upd s.status r k, seen := startNext (upd s.seen r (some k)) s.resp.tail, finished := s.finished ++ [(r, k)], answered := s.answered ++ [(r, k)], resp := s.resp.tail }).finished = (s.finished ++ [(r, k)]) ++ g := by
          unfold dropCur
          split
          · simp only [disconnect]
            split
            · exact ⟨_, rfl⟩
            · exact ⟨[], by simp⟩
          · exact ⟨[], by simp⟩
        obtain ⟨g, hg⟩ := this
        rw [hg]
        refine ⟨r, g ++ f, hst, by simp, ?_⟩
        intro e
        rw [e] at hkeep
        cases hkeep
      · exact ⟨r, [], hst, rfl, fun _ => rfl⟩
    · cases he
  · cases he

/-! ## Examples and violations -/

/-- The tests of `LLegal` and `NoEarly`. -/
def llegal (s : Line) : LEv → Bool
  | .queue r => !(s.queue.contains r || s.resp.contains r || s.cur == some r)
  | _ => true

def noEarly (s : Line) : LEv → Bool
  | .final _ _ => s.resp.head?.all fun r => s.cur != some r
  | _ => true

theorem llegal_ok {s : Line} {e : LEv} (h : llegal s e = true) : LLegal s e := by
  cases e <;> first | trivial | skip
  simp only [llegal, Bool.not_eq_true', Bool.or_eq_false_iff] at h
  simp only [LLegal, Line.pend, not_or]
  exact ⟨by simpa using h.1.1, by simpa using h.1.2, by simpa using h.2⟩

theorem noEarly_ok {s : Line} {e : LEv} (h : noEarly s e = true) : NoEarly s e := by
  cases e <;> first | trivial | skip
  intro r hr
  simp only [noEarly, hr, Option.all_some] at h
  simpa using h

/-- A history whose events pass a test. -/
def okHistory (S : Reqs) (ok : Line → LEv → Bool) : Line → List LEv → Option Line
  | s, [] => some s
  | s, e :: es => if llegal s e && ok s e then (lineStep S s e).bind fun s' => okHistory S ok s' es else none

theorem okHistory_reach {S : Reqs} {ok : Line → LEv → Bool} {Ok : Line → LEv → Prop} (hok : ∀ s e, ok s e = true → Ok s e) :
    ∀ (es : List LEv) {s s' : Line}, LReach S Ok s → okHistory S ok s es = some s' → LReach S Ok s' := by
  intro es
  induction es with
  | nil => intro s s' hr h; cases h; exact hr
  | cons e es ih =>
    intro s s' hr h
    unfold okHistory at h
    split at h
    · next hc =>
      rw [Bool.and_eq_true] at hc
      cases hs : lineStep S s e with
      | none => rw [hs] at h; cases h
      | some q =>
        rw [hs] at h
        exact ih (.step hr (llegal_ok hc.1) (hok _ _ hc.2) hs) h
    · cases h

theorem exists_lreach {S : Reqs} {ok : Line → LEv → Bool} {Ok : Line → LEv → Prop} (hok : ∀ s e, ok s e = true → Ok s e) (es : List LEv)
    {test : Line → Bool} (h : ((okHistory S ok (Line.init S) es).map test).getD false = true) : ∃ s, LReach S Ok s ∧ test s = true := by
  cases hh : okHistory S ok (Line.init S) es with
  | none => rw [hh] at h; cases h
  | some s => rw [hh] at h; exact ⟨s, okHistory_reach hok es .init hh, h⟩

/-- Requests 1 and 2 are idempotent (GET and PUT), 3 is not (POST). -/
def sample : Reqs where
  idem := fun r => r != 3
  head := fun r => [100 + r]
  body := fun r => if r = 1 then [] else [[7, 7], [8]]
  expect := fun _ => false
  sized := fun _ => true
  max := fun _ => 3

/-- Sending all of a request without a body, or with the body of the sample. -/
def sendGet : List LEv := [.start, .send 1, .bodyEnd]
def sendPut : List LEv := [.start, .send 1, .body, .send 2, .body, .send 1, .bodyEnd]

/-- Two requests are pipelined, both are answered; the third waits for that. -/
example : ∃ s, LReach sample NoEarly s ∧ (s.started == [1, 2, 3] && s.answered == [(1, 200), (2, 204)] && s.resp == [3]
    && s.finished == [(1, 200), (2, 204)] && s.wire == [101, 102, 7, 7, 8, 103]) = true :=
  exists_lreach (fun _ _ => noEarly_ok)
    ([.queue 1, .queue 2, .queue 3] ++ sendGet ++ sendPut ++ [.final 200 true, .final 204 true, .start, .send 1]) (by decide +kernel)

/-- A connection is lost; the GET is sent again, the POST, of which a byte was sent, is not. -/
example : ∃ s, LReach sample NoEarly s ∧ (s.queue == [1] && s.requeued 1 == 1 && s.finished == []) = true :=
  exists_lreach (fun _ _ => noEarly_ok) ([.queue 1] ++ sendGet ++ [.eof]) (by decide +kernel)

example : ∃ s, LReach sample NoEarly s ∧ (s.queue == [] && s.requeued 3 == 0 && s.finished == [(3, 0)] && s.bytesOf 3 == 1) = true :=
  exists_lreach (fun _ _ => noEarly_ok) [.queue 3, .start, .send 1, .fail] (by decide +kernel)

/-- A POST of which no byte was sent is sent again. -/
example : ∃ s, LReach sample NoEarly s ∧ (s.queue == [3] && s.requeued 3 == 1 && s.bytesOf 3 == 0) = true :=
  exists_lreach (fun _ _ => noEarly_ok) [.queue 3, .start, .fail] (by decide +kernel)

/-- **C144, violated**: a response 200 that arrives before the PUT has been sent makes the client fail with TypeError: the request is
reported as finished, sent again, and reported as finished twice more. -/
theorem C144_early_success_violation : ∃ s, LReach sample AnyL s ∧ (s.asked 2 == 1 && s.finished == [(2, 200), (2, 200), (2, 200)] && s.tries 2 == 2 && s.queue == []) = true :=
  exists_lreach (fun _ _ _ => trivial) (ok := fun _ _ => true)
    ([.queue 2, .start, .send 1, .final 200 true] ++ sendPut ++ [.final 200 true]) (by decide +kernel)

/-- **C144, violated**: a connection that is closed in the middle of a response is reported as a response. -/
theorem C144_truncated_violation : ∃ s, LReach sample NoEarly s ∧ (s.finished == [(1, 200)] && s.status 1 == 200 && s.queue == []) = true :=
  exists_lreach (fun _ _ => noEarly_ok) ([.queue 1] ++ sendGet ++ [.line 200, .eof]) (by decide +kernel)

/-- **C144, violated**: a request is sent again after the first line of a response to its first attempt; when the connection is lost before
the second is answered, the old status is reported. -/
theorem C144_stale_violation : ∃ s s', LReach sample NoEarly s ∧ s.wire = [102, 7, 7, 8, 101] ∧ s.answered = [] ∧
    s.seen 2 = none ∧ lineStep sample s .eof = some s' ∧ (1, 200) ∈ s'.finished := by
  have h : ∃ s, LReach sample NoEarly s ∧ (s.wire == [102, 7, 7, 8, 101] && s.answered.isEmpty && (s.seen 2).isNone
      && ((lineStep sample s .eof).map fun s' => s'.finished.contains (1, 200)).getD false) = true :=
    exists_lreach (fun _ _ => noEarly_ok)
      ([.queue 1] ++ sendGet ++ [.line 200, .queue 2, .fail] ++ sendPut ++ sendGet) (by decide +kernel)
  obtain ⟨s, h1, h2⟩ := h
  simp only [Bool.and_eq_true, beq_iff_eq, List.isEmpty_iff, Option.isNone_iff_eq_none] at h2
  obtain ⟨⟨⟨a, b⟩, c⟩, d⟩ := h2
  cases hs : lineStep sample s .eof with
  | none => rw [hs] at d; cases d
  | some s' =>
    rw [hs] at d
    exact ⟨s, s', h1, a, b, c, hs, by simpa using d⟩

/-- **C145, violated**: a request that is sent again comes after those that were waiting for it: the POST that was asked for after the PUT
is started first. -/
theorem C145_order_violation : ∃ s, LReach sample NoEarly s ∧ (s.started == [3] && s.queue == [2]) = true :=
  exists_lreach (fun _ _ => noEarly_ok) ([.queue 2, .queue 3] ++ sendPut ++ [.eof, .start]) (by decide +kernel)

/-- **C145, violated**: a response 400 that arrives before the body has been sent makes the client leave out a part of the body and go on:
the next request is taken for the rest of the body. -/
theorem C145_hole_violation : ∃ s, LReach sample AnyL s ∧ (s.started == [2, 1] && s.wire == [102, 8, 101]) = true :=
  exists_lreach (fun _ _ _ => trivial) (ok := fun _ _ => true)
    ([.queue 2, .queue 1, .start, .send 1, .final 400 true, .body, .send 1, .bodyEnd] ++ sendGet) (by decide +kernel)

end Verif.Cli
