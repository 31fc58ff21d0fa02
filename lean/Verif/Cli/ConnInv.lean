import Verif.Cli.Conn
import Mathlib.Data.List.Count
/-!
# The invariant of a connection
-/
namespace Verif.Cli

/-- A request is on its way. -/
def Line.pend (s : Line) (r : Nat) : Prop := r ∈ s.queue ∨ r ∈ s.resp ∨ s.cur = some r

/-- A request is not given to the connection a second time before it is finished. -/
def LLegal (s : Line) : LEv → Prop
  | .queue r => ¬ s.pend r
  | _ => True

/-- No final response arrives before the request has been sent. -/
def NoEarly (s : Line) : LEv → Prop
  | .final _ _ => ∀ r, s.resp.head? = some r → s.cur ≠ some r
  | _ => True

/-- The states a history leads to. -/
inductive LReach (S : Reqs) (ok : Line → LEv → Prop) : Line → Prop
  | init : LReach S ok (Line.init S)
  | step {s s' : Line} {e : LEv} : LReach S ok s → LLegal s e → ok s e → lineStep S s e = some s' → LReach S ok s'

/-- How often `finished()` was called for a request. -/
def Line.fin (s : Line) (r : Nat) : Nat := (s.finished.map (·.1)).count r

/-- The loop of `close`. -/
theorem closeLoop_spec (err : Bool) : ∀ (rs : List Nat) (resend : Bool) (s : Line), ∃ (l : List Nat) (f : List (Nat × Nat)) (st : Nat → Nat),
    closeLoop err rs resend s = { s with queue := s.queue ++ l, status := st, finished := s.finished ++ f, requeued := fun r => s.requeued r + l.count r } ∧
    (∀ r ∈ l, canRetry s r = true) ∧ (∀ r, l.count r + (f.map (·.1)).count r = rs.count r) ∧ (∀ r, r ∉ rs → st r = s.status r) ∧
    (rs.Nodup → ∀ r ∈ l, st r = s.status r) := by
  intro rs
  induction rs with
  | nil => intro resend s; exact ⟨[], [], s.status, by simp [closeLoop], by simp, by simp, by simp, by simp⟩
  | cons r rs ih =>
    intro resend s
    have hd : ∀ resend', ∃ (l : List Nat) (f : List (Nat × Nat)) (st : Nat → Nat),
        closeLoop err rs resend' (handleDisconnect s r) = { s with queue := s.queue ++ l, status := st, finished := s.finished ++ f, requeued := fun r => s.requeued r + l.count r } ∧
        (∀ r ∈ l, canRetry s r = true) ∧ (∀ x, l.count x + (f.map (·.1)).count x = (r :: rs).count x) ∧ (∀ x, x ∉ r :: rs → st x = s.status x) ∧
        ((r :: rs).Nodup → ∀ x ∈ l, st x = s.status x) := by
      intro resend'
      obtain ⟨l, f, st, h1, h2, h3, h4, h5⟩ := ih resend' (handleDisconnect s r)
      refine ⟨l, (r, (s.seen r).getD 0) :: f, st, ?_, h2, ?_, ?_, ?_⟩
      · rw [h1]; simp [handleDisconnect]
      · intro x
        have := h3 x
        rw [List.map_cons, List.count_cons, List.count_cons]
        dsimp only
        omega
      · intro x hx
        rw [List.mem_cons, not_or] at hx
        rw [h4 x hx.2]
        simp [handleDisconnect, upd, hx.1]
      · intro hn x hx
        rw [List.nodup_cons] at hn
        rw [h5 hn.2 x hx]
        have : x ∈ rs := List.count_pos_iff.mp (by have := h3 x; have := List.count_pos_iff.mpr hx; omega)
        have : x ≠ r := fun e => hn.1 (e ▸ this)
        simp [handleDisconnect, upd, this]
    unfold closeLoop
    split
    · split
      · next hc =>
        obtain ⟨l, f, st, h1, h2, h3, h4, h5⟩ := ih resend { s with queue := s.queue ++ [r], requeued := upd s.requeued r (s.requeued r + 1) }
        refine ⟨r :: l, f, st, ?_, ?_, ?_, ?_, ?_⟩
        · rw [h1]
          simp only [List.append_assoc, List.singleton_append, Line.mk.injEq, true_and, and_true]
          funext x
          rw [List.count_cons]
          by_cases hx : x = r
          · subst hx; simp [upd]; omega
          · have : ¬ r = x := fun e => hx e.symm
            simp [upd, hx, this]
        · intro x hx
          rcases List.mem_cons.mp hx with rfl | hx
          · exact hc
          · exact h2 x hx
        · intro x
          have := h3 x
          rw [List.count_cons, List.count_cons]
          omega
        · intro x hx
          rw [List.mem_cons, not_or] at hx
          exact h4 x hx.2
        · intro hn x hx
          rw [List.nodup_cons] at hn
          rcases List.mem_cons.mp hx with rfl | hx
          · exact h4 x hn.1
          · exact h5 hn.2 x hx
      · exact hd false
    · exact hd resend

/-- The invariant of all histories. -/
structure LInv (S : Reqs) (s : Line) : Prop where
  qNodup : s.queue.Nodup
  rNodup : s.resp.Nodup
  disj : ∀ r ∈ s.queue, r ∉ s.resp ∧ s.cur ≠ some r
  ready : s.mode = .ready ∨ s.mode = .closeWait → s.cur = none
  busy : s.mode = .sending ∨ s.mode = .waiting → s.cur ≠ none
  idle : s.cur = none → s.buffer = []
  bytes : s.mode ≠ .closeWait → s.sent + s.buffer.length = s.buffered
  pos : ∀ r, s.cur = some r → s.pos r ≤ s.sent
  once : ∀ r, S.idem r = false → 0 < s.bytesOf r → (s.maxr r = 0 ∧ 1 ≤ s.retries r) ∨ (s.cur = some r ∧ s.pos r < s.sent)
  maxr : ∀ r, s.maxr r ≤ S.max r
  req : ∀ r, s.requeued r ≤ s.retries r ∧ s.requeued r ≤ S.max r ∧ (r ∈ s.resp → s.cur ≠ some r → s.requeued r + 1 ≤ s.retries r)
  tries : ∀ r, s.tries r + s.queue.count r = s.asked r + s.requeued r
  early : ∀ r, s.cur = some r → r ∈ s.resp ∨ 0 < s.status r
  lost : ∀ r, s.pend r ∨ s.asked r ≤ s.fin r
  lost' : ∀ r, s.asked r ≤ s.fin r + 1
  order : s.started = s.answered.map (·.1) ++ s.resp

theorem linv_init (S : Reqs) : LInv S (Line.init S) := by
  constructor <;> simp [Line.init, Line.fin]

/-- After the current request has been let go. -/
theorem dropCur_inv {S : Reqs} {s : Line} (h : LInv S s) : (dropCur S s).cur = none ∧ (dropCur S s).queue = s.queue ∧ (dropCur S s).resp = s.resp ∧
    (dropCur S s).requeued = s.requeued ∧ (dropCur S s).bytesOf = s.bytesOf ∧ (dropCur S s).tries = s.tries ∧ (dropCur S s).asked = s.asked ∧
    (∀ r, S.idem r = false → 0 < s.bytesOf r → (dropCur S s).maxr r = 0 ∧ 1 ≤ (dropCur S s).retries r) ∧
    (∀ r, (dropCur S s).maxr r ≤ S.max r) ∧
    (∀ r, s.requeued r ≤ (dropCur S s).retries r ∧ (r ∈ s.resp → s.requeued r + 1 ≤ (dropCur S s).retries r)) ∧
    (∀ r, s.fin r ≤ (dropCur S s).fin r) ∧ (∀ r, s.cur = some r → r ∉ s.resp → s.fin r + 1 ≤ (dropCur S s).fin r) := by
  unfold dropCur
  split
  · next r0 hc =>
    refine ⟨rfl, rfl, rfl, rfl, rfl, rfl, rfl, ?_, ?_, ?_, ?_, ?_⟩
    · intro r hi hb
      simp only [disconnect]
      rcases h.once r hi hb with ⟨h1, h2⟩ | ⟨h1, h2⟩
      · refine ⟨?_, ?_⟩
        · split
          · exact h1
          · simp only [upd]; split
            · rfl
            · exact h1
        · simp only [upd]; split
          · omega
          · exact h2
      · rw [hc] at h1
        cases h1
        have : ¬ (S.idem r0 || decide (s.sent ≤ s.pos r0)) = true := by
          simp only [hi, Bool.false_or, decide_eq_true_eq]; omega
        rw [if_neg this]
        simp [upd]
    · intro r
      simp only [disconnect]
      split
      · exact h.maxr r
      · simp only [upd]; split
        · omega
        · exact h.maxr r
    · intro r
      obtain ⟨h1, -, h3⟩ := h.req r
      simp only [disconnect, upd]
      by_cases hr : r = r0
      · subst hr; simp only [if_true]; exact ⟨by omega, fun _ => by omega⟩
      · simp only [hr, if_false]
        refine ⟨h1, fun hm => h3 hm ?_⟩
        rw [hc]; intro e; cases e; exact hr rfl
    · intro r
      simp only [Line.fin, disconnect]
      split
      · simp
      · exact Nat.le_refl _
    · intro r hr hm
      rw [hc] at hr; cases hr
      rcases h.early r0 hc with h1 | h1
      · exact absurd h1 hm
      · simp [Line.fin, disconnect, h1]
  · next hc =>
    refine ⟨hc, rfl, rfl, rfl, rfl, rfl, rfl, ?_, h.maxr, ?_, fun _ => Nat.le_refl _, ?_⟩
    · intro r hi hb
      rcases h.once r hi hb with h1 | ⟨h1, -⟩
      · exact h1
      · rw [hc] at h1; cases h1
    · intro r
      obtain ⟨h1, -, h3⟩ := h.req r
      exact ⟨h1, fun hm => h3 hm (by rw [hc]; simp)⟩
    · intro r hr; rw [hc] at hr; cases hr

/-- What `close` does. -/
theorem closeLine_spec {S : Reqs} {s : Line} (h : LInv S s) (err : Bool) : LInv S (closeLine S err s) ∧
    (∀ r, s.requeued r < (closeLine S err s).requeued r → S.idem r = true ∨ s.bytesOf r = 0) := by
  obtain ⟨d1, d2, d3, d4, d5, d6, d7, d8, d9, d10, d11, d12⟩ := dropCur_inv h
  obtain ⟨l, f, st, h1, h2, h3, h4, -⟩ := closeLoop_spec err (dropCur S s).resp true (dropCur S s)
  have hn : ∀ r, l.count r ≤ 1 ∧ (r ∈ l → r ∈ s.resp) := by
    intro r
    have e := h3 r
    rw [d3] at e
    have := List.nodup_iff_count_le_one.mp h.rNodup r
    refine ⟨by omega, ?_⟩
    intro hm
    have := List.count_pos_iff.mpr hm
    exact List.count_pos_iff.mp (by omega)
  have hretry : ∀ r ∈ l, (dropCur S s).retries r ≤ (dropCur S s).maxr r := by
    intro r hr
    have := h2 r hr
    simpa [canRetry] using this
  have heq : closeLine S err s = { dropCur S s with queue := s.queue ++ l, status := st, finished := (dropCur S s).finished ++ f, requeued := fun r => s.requeued r + l.count r, resp := [], rest := [], buffer := [], buffered := 0, sent := 0, mode := .ready, wire := [], started := [], answered := [] } := by
    unfold closeLine
    dsimp only
    rw [h1]
    simp only [d2, d4]
  have hnot : ∀ r ∈ s.queue, r ∉ l := fun r hr hl => (h.disj r hr).1 ((hn r).2 hl)
  rw [heq]
  refine ⟨?_, ?_⟩
  · constructor
    · refine List.nodup_append.mpr ⟨h.qNodup, List.nodup_iff_count_le_one.mpr fun r => (hn r).1, ?_⟩
      intro a ha b hb e
      subst e
      exact hnot a ha hb
    · exact List.nodup_nil
    · intro r _; exact ⟨by simp, by dsimp only; rw [d1]; simp⟩
    · intro _; exact d1
    · intro hm; simp at hm
    · intro _; rfl
    · intro _; rfl
    · intro r hr; dsimp only at hr; rw [d1] at hr; cases hr
    · intro r hi hb
      dsimp only at hb ⊢
      rw [d5] at hb
      exact .inl (d8 r hi hb)
    · exact d9
    · intro r
      dsimp only
      obtain ⟨e1, e2⟩ := d10 r
      refine ⟨?_, ?_, by simp⟩
      · by_cases hl : r ∈ l
        · have := e2 ((hn r).2 hl); have := (hn r).1; omega
        · rw [List.count_eq_zero.mpr hl]; exact e1
      · by_cases hl : r ∈ l
        · have a1 := e2 ((hn r).2 hl); have a2 := (hn r).1; have a3 := hretry r hl; have a4 := d9 r; omega
        · rw [List.count_eq_zero.mpr hl]; exact (h.req r).2.1
    · intro r
      dsimp only
      rw [d6, d7, List.count_append]
      have := h.tries r
      omega
    · intro r hr; dsimp only at hr; rw [d1] at hr; cases hr
    · intro r
      have e := h3 r
      rw [d3] at e
      have fin : (f.map (·.1)).count r + (dropCur S s).fin r = Line.fin { dropCur S s with queue := s.queue ++ l, status := st, finished := (dropCur S s).finished ++ f, requeued := fun r => s.requeued r + l.count r, resp := [], rest := [], buffer := [], buffered := 0, sent := 0, mode := .ready, wire := [], started := [], answered := [] } r := by
        simp only [Line.fin, List.map_append, List.count_append]
        omega
      rw [← fin]
      dsimp only
      rw [d7]
      rcases h.lost r with (hq | hr | hc) | hf
      · exact .inl (.inl (List.mem_append.mpr (.inl hq)))
      · by_cases hl : r ∈ l
        · exact .inl (.inl (List.mem_append.mpr (.inr hl)))
        · right
          have a1 := List.count_eq_zero.mpr hl
          have a2 := List.count_pos_iff.mpr hr
          have a3 := h.lost' r
          have a4 := d11 r
          omega
      · by_cases hm : r ∈ s.resp
        · by_cases hl : r ∈ l
          · exact .inl (.inl (List.mem_append.mpr (.inr hl)))
          · right
            have a1 := List.count_eq_zero.mpr hl
            have a2 := List.count_pos_iff.mpr hm
            have a3 := h.lost' r
            have a4 := d11 r
            omega
        · right
          have a3 := h.lost' r
          have a4 := d12 r hc hm
          omega
      · right
        have a4 := d11 r
        omega
    · intro r
      have a3 := h.lost' r
      have a4 := d11 r
      simp only [Line.fin, List.map_append, List.count_append] at a4 a3 ⊢
      rw [d7]
      omega
    · rfl
  · intro r hr
    dsimp only at hr
    have hl : r ∈ l := List.count_pos_iff.mp (by omega)
    by_contra hcon
    rw [not_or] at hcon
    have hi : S.idem r = false := by simpa using hcon.1
    have hb : 0 < s.bytesOf r := Nat.pos_of_ne_zero hcon.2
    obtain ⟨a1, a2⟩ := d8 r hi hb
    have := hretry r hl
    omega

/-- The end of a response. -/
theorem popResponse_inv {S : Reqs} {s : Line} (h : LInv S s) {r : Nat} {rs : List Nat} (hr : s.resp = r :: rs) (k : Nat) (keep : Bool)
    (h1 : s.cur = some r → 0 < s.status r) (h2 : s.cur ≠ some r → s.asked r ≤ s.fin r) :
    LInv S (popResponse S keep k r s) ∧ (∀ x, s.requeued x < (popResponse S keep k r s).requeued x → S.idem x = true ∨ s.bytesOf x = 0) := by
  have hnd := h.rNodup
  rw [hr, List.nodup_cons] at hnd
  have key : LInv S { s with answered := s.answered ++ [(r, k)], resp := s.resp.tail, seen := startNext s.seen s.resp.tail } := by
    rw [hr, List.tail_cons]
    constructor
    · exact h.qNodup
    · exact hnd.2
    · intro x hx
      obtain ⟨a, b⟩ := h.disj x hx
      rw [hr, List.mem_cons, not_or] at a
      exact ⟨a.2, b⟩
    · exact h.ready
    · exact h.busy
    · exact h.idle
    · exact h.bytes
    · exact h.pos
    · exact h.once
    · exact h.maxr
    · intro x
      obtain ⟨a, b, c⟩ := h.req x
      exact ⟨a, b, fun hx => c (by rw [hr]; exact List.mem_cons_of_mem _ hx)⟩
    · exact h.tries
    · intro x hx
      rcases h.early x hx with a | a
      · rw [hr] at a
        rcases List.mem_cons.mp a with rfl | a
        · exact .inr (h1 hx)
        · exact .inl a
      · exact .inr a
    · intro x
      rcases h.lost x with (a | a | a) | a
      · exact .inl (.inl a)
      · rw [hr] at a
        rcases List.mem_cons.mp a with rfl | a
        · by_cases hc : s.cur = some x
          · exact .inl (.inr (.inr hc))
          · exact .inr (h2 hc)
        · exact .inl (.inr (.inl a))
      · exact .inl (.inr (.inr a))
      · exact .inr a
    · exact h.lost'
    · have := h.order
      rw [hr] at this
      simp [this]
  unfold popResponse
  dsimp only
  split
  · obtain ⟨a, b⟩ := closeLine_spec key false
    exact ⟨a, b⟩
  · exact ⟨key, fun x hx => absurd hx (Nat.lt_irrefl _)⟩

/-- What a request is disconnected from: after it has been sent, or given up. -/
theorem disconnect_inv {S : Reqs} {s : Line} (h : LInv S s) {r : Nat} (hc : s.cur = some r) (m : Mode) (hm : m = .ready ∨ m = .closeWait)
    (hb : s.buffer = [] ∨ m = .closeWait) (hst : r ∈ s.resp ∨ 0 < s.status r) :
    LInv S { disconnect S s r with cur := none, buffer := [], rest := [], mode := m } := by
  have hdr := dropCur_inv h
  unfold dropCur at hdr
  rw [hc] at hdr
  obtain ⟨-, -, -, -, -, -, -, d8, d9, d10, d11, d12⟩ := hdr
  constructor
  · exact h.qNodup
  · exact h.rNodup
  · intro x hx; exact ⟨(h.disj x hx).1, by simp⟩
  · intro _; rfl
  · rcases hm with rfl | rfl <;> simp
  · intro _; rfl
  · intro hne
    rcases hb with hb | hb
    · have : s.mode ≠ .closeWait := by
        intro e
        have := h.ready (.inr e)
        rw [hc] at this; cases this
      have := h.bytes this
      rw [hb] at this
      exact this
    · exact absurd hb hne
  · intro x hx; cases hx
  · intro x hi hx; exact .inl (d8 x hi hx)
  · exact d9
  · intro x
    exact ⟨(d10 x).1, (h.req x).2.1, fun hx _ => (d10 x).2 hx⟩
  · exact h.tries
  · intro x hx; cases hx
  · intro x
    have a := d11 x
    rcases h.lost x with (b | b | b) | b
    · exact .inl (.inl b)
    · exact .inl (.inr (.inl b))
    · rw [hc] at b; cases b
      by_cases hx : r ∈ s.resp
      · exact .inl (.inr (.inl hx))
      · right
        have e1 := d12 r rfl hx
        have e2 := h.lost' r
        exact Nat.le_trans e2 e1
    · right
      exact Nat.le_trans b a
  · intro x
    have a := d11 x
    have e2 := h.lost' x
    exact Nat.le_trans e2 (Nat.succ_le_succ a)
  · exact h.order

/-- The invariant is kept, and only requests that may be sent again are queued again. -/
theorem lineStep_inv {S : Reqs} {s s' : Line} (h : LInv S s) {e : LEv} (hl : LLegal s e) (he : lineStep S s e = some s') :
    LInv S s' ∧ (∀ r, s.requeued r < s'.requeued r → S.idem r = true ∨ s.bytesOf r = 0) := by
  have triv : ∀ {q : Line}, q.requeued = s.requeued → (∀ r, s.requeued r < q.requeued r → S.idem r = true ∨ s.bytesOf r = 0) := by
    intro q e r hr; rw [e] at hr; exact absurd hr (Nat.lt_irrefl _)
  cases e with
  | queue r =>
    cases he
    have hp : ¬ s.pend r := hl
    simp only [Line.pend, not_or] at hp
    refine ⟨?_, triv rfl⟩
    constructor
    · refine List.nodup_append.mpr ⟨h.qNodup, List.nodup_singleton _, ?_⟩
      intro a ha b hb e
      rw [List.mem_singleton] at hb
      subst e; subst hb
      exact hp.1 ha
    · exact h.rNodup
    · intro x hx
      rcases List.mem_append.mp hx with hx | hx
      · exact h.disj x hx
      · rw [List.mem_singleton] at hx; subst hx; exact hp.2
    · exact h.ready
    · exact h.busy
    · exact h.idle
    · exact h.bytes
    · exact h.pos
    · exact h.once
    · exact h.maxr
    · exact h.req
    · intro x
      have := h.tries x
      simp only [List.count_append, upd]
      by_cases hx : x = r
      · subst hx; simp; omega
      · have : ¬ r = x := fun e => hx e.symm
        simp [hx, this]; omega
    · intro x hx
      rcases h.early x hx with a | a
      · exact .inl a
      · right
        have : x ≠ r := fun e => hp.2.2 (e ▸ hx)
        simp only [upd, if_neg this]; exact a
    · intro x
      by_cases hx : x = r
      · subst hx; exact .inl (.inl (by simp))
      · rcases h.lost x with (a | a | a) | a
        · exact .inl (.inl (by simp [a]))
        · exact .inl (.inr (.inl a))
        · exact .inl (.inr (.inr a))
        · right; simp only [upd, if_neg hx]; exact a
    · intro x
      simp only [upd]
      split
      · next hx =>
        subst hx
        rcases h.lost x with (a | a | a) | a
        · exact absurd a hp.1
        · exact absurd a hp.2.1
        · exact absurd a hp.2.2
        · exact Nat.succ_le_succ a
      · exact h.lost' x
    · exact h.order
  | start =>
    simp only [lineStep] at he
    split at he
    · cases he
    · next r rs hq =>
      split at he
      · next hg =>
        cases he
        rw [Bool.and_eq_true, beq_iff_eq] at hg
        have hm := hg.1
        have hcur := h.ready (.inl hm)
        have hbuf := h.idle hcur
        have hby := h.bytes (by rw [hm]; simp)
        rw [hbuf] at hby
        have hqn := h.qNodup
        rw [hq, List.nodup_cons] at hqn
        have hrd := h.disj r (by rw [hq]; simp)
        refine ⟨?_, triv rfl⟩
        have modeEx : (startReq S { s with queue := rs } r).mode = .sending ∨ (startReq S { s with queue := rs } r).mode = .waiting := by
          simp only [startReq]; split <;> simp
        constructor
        · exact hqn.2
        · refine List.nodup_append.mpr ⟨h.rNodup, List.nodup_singleton _, ?_⟩
          intro a ha b hb e
          rw [List.mem_singleton] at hb
          subst e; subst hb
          exact hrd.1 ha
        · intro x hx
          have hx' : x ∈ rs := hx
          have hxr : x ≠ r := fun e => hqn.1 (e ▸ hx')
          refine ⟨?_, ?_⟩
          · intro hm
            rcases List.mem_append.mp hm with hm | hm
            · exact (h.disj x (by rw [hq]; exact List.mem_cons_of_mem _ hx')).1 hm
            · rw [List.mem_singleton] at hm; exact hxr hm
          · intro e; exact hxr (Option.some.inj e).symm
        · intro e; rcases modeEx with a | a <;> rw [a] at e <;> simp at e
        · intro _ e; cases e
        · intro e; cases e
        · intro _
          simp only [startReq, hbuf, List.nil_append]
          simp at hby
          omega
        · intro x hx
          cases hx
          simp only [startReq, upd, if_true]
          simp at hby
          omega
        · intro x hi hx
          rcases h.once x hi hx with a | ⟨a, -⟩
          · exact .inl a
          · rw [hcur] at a; cases a
        · exact h.maxr
        · intro x
          obtain ⟨a, b, c⟩ := h.req x
          refine ⟨a, b, ?_⟩
          intro hx hne
          rcases List.mem_append.mp hx with hx | hx
          · exact c hx (by rw [hcur]; simp)
          · rw [List.mem_singleton] at hx; subst hx; exact absurd rfl hne
        · intro x
          have := h.tries x
          rw [hq, List.count_cons] at this
          simp only [startReq, upd]
          by_cases hx : x = r
          · subst hx; simp at this ⊢; omega
          · have hx' : ¬ r = x := fun e => hx e.symm
            simp [hx, hx'] at this ⊢; omega
        · intro x hx; cases hx; exact .inl (by simp [startReq])
        · intro x
          rcases h.lost x with (a | a | a) | a
          · rw [hq] at a
            rcases List.mem_cons.mp a with rfl | a
            · exact .inl (.inr (.inr rfl))
            · exact .inl (.inl a)
          · exact .inl (.inr (.inl (List.mem_append.mpr (.inl a))))
          · rw [hcur] at a; cases a
          · exact .inr a
        · exact h.lost'
        · simp only [startReq, h.order, List.append_assoc]
      · cases he
  | body =>
    simp only [lineStep] at he
    split at he
    · next r0 c cs hc hrest =>
      split at he
      · next hg =>
        cases he
        rw [Bool.and_eq_true, beq_iff_eq, List.isEmpty_iff] at hg
        refine ⟨⟨h.qNodup, h.rNodup, h.disj, h.ready, h.busy, ?_, ?_, h.pos, h.once, h.maxr, h.req, h.tries, h.early, h.lost, h.lost', h.order⟩, triv rfl⟩
        · intro e; dsimp only at e; rw [hc] at e; cases e
        · intro e
          have := h.bytes e
          rw [hg.2] at this
          simp at this ⊢
          omega
      · cases he
    · cases he
  | bodyEnd =>
    simp only [lineStep] at he
    split at he
    · next r0 hc hrest =>
      split at he
      · next hg =>
        rw [Bool.and_eq_true, beq_iff_eq, List.isEmpty_iff] at hg
        have key := disconnect_inv h hc .ready (.inl rfl) (.inl hg.2) (h.early r0 hc)
        have e : { disconnect S s r0 with cur := none, buffer := [], rest := [], mode := Mode.ready } = s' := by
          rw [← Option.some.inj he]
          simp only [disconnect, hg.2, hrest]
        rw [e] at key
        refine ⟨key, triv ?_⟩
        rw [← e]; rfl
      · cases he
    · cases he
  | send n =>
    simp only [lineStep] at he
    split at he
    · next r0 hc =>
      split at he
      · next hg =>
        cases he
        rw [Bool.and_eq_true, decide_eq_true_eq, decide_eq_true_eq] at hg
        have hm : s.mode ≠ .closeWait := by
          intro e
          have := h.ready (.inr e)
          rw [hc] at this; cases this
        refine ⟨⟨h.qNodup, h.rNodup, h.disj, h.ready, h.busy, ?_, ?_, ?_, ?_, h.maxr, h.req, h.tries, h.early, h.lost, h.lost', h.order⟩, triv rfl⟩
        · intro e; dsimp only at e; rw [hc] at e; cases e
        · intro _
          have := h.bytes hm
          simp only [List.length_drop]
          omega
        · intro x hx
          have := h.pos x hx
          dsimp only
          omega
        · intro x hi hx
          dsimp only at hx ⊢
          by_cases hxr : x = r0
          · subst hxr
            have := h.pos x hc
            exact .inr ⟨hc, by omega⟩
          · simp only [upd, if_neg hxr] at hx
            rcases h.once x hi hx with a | ⟨a, b⟩
            · exact .inl a
            · exact .inr ⟨a, by omega⟩
      · cases he
    · cases he
  | cont =>
    simp only [lineStep] at he
    split at he
    · next r rs hr =>
      split at he
      · next hg =>
        cases he
        obtain ⟨hc, hm⟩ := hg
        refine ⟨⟨h.qNodup, h.rNodup, h.disj, ?_, ?_, h.idle, ?_, h.pos, h.once, h.maxr, h.req, h.tries, h.early, h.lost, h.lost', h.order⟩, triv rfl⟩
        · simp
        · intro _; dsimp only; rw [hc]; simp
        · intro _; exact h.bytes (by rw [hm]; simp)
      · cases he
        exact ⟨⟨h.qNodup, h.rNodup, h.disj, h.ready, h.busy, h.idle, h.bytes, h.pos, h.once, h.maxr, h.req, h.tries, h.early, h.lost, h.lost', h.order⟩, triv rfl⟩
    · cases he
  | contTimeout =>
    simp only [lineStep] at he
    split at he
    · next hg =>
      rw [Bool.and_eq_true, beq_iff_eq] at hg
      cases he
      refine ⟨⟨h.qNodup, h.rNodup, h.disj, ?_, ?_, h.idle, ?_, h.pos, h.once, h.maxr, h.req, h.tries, h.early, h.lost, h.lost', h.order⟩, triv rfl⟩
      · simp
      · intro _; exact h.busy (.inr hg.1)
      · intro _; exact h.bytes (by rw [hg.1]; simp)
    · cases he
  | line k =>
    simp only [lineStep] at he
    split at he
    · cases he
      exact ⟨⟨h.qNodup, h.rNodup, h.disj, h.ready, h.busy, h.idle, h.bytes, h.pos, h.once, h.maxr, h.req, h.tries, h.early, h.lost, h.lost', h.order⟩, triv rfl⟩
    · cases he
  | final k keep =>
    simp only [lineStep] at he
    split at he
    · next r rs hr =>
      split at he
      · next hk =>
        cases he
        have base : LInv S { s with status := upd s.status r k, seen := upd s.seen r (some k) } :=
          ⟨h.qNodup, h.rNodup, h.disj, h.ready, h.busy, h.idle, h.bytes, h.pos, h.once, h.maxr, h.req, h.tries, fun x hx => by
            rcases h.early x hx with a | a
            · exact .inl a
            · right
              simp only [upd]
              split
              · omega
              · exact a, h.lost, h.lost', h.order⟩
        unfold finalResp
        dsimp only
        split
        · next hc =>
          split
          · split
            · next c cs hrest =>
              refine popResponse_inv (s := { s with status := upd s.status r k, seen := upd s.seen r (some k), rest := cs })
                ⟨base.qNodup, base.rNodup, base.disj, base.ready, base.busy, base.idle, base.bytes, base.pos, base.once, base.maxr, base.req, base.tries, base.early, base.lost, base.lost', base.order⟩ hr k keep ?_ ?_
              · intro _; simp [upd]; omega
              · intro e; exact absurd hc e
            · split
              · have key := disconnect_inv base hc .closeWait (.inr rfl) (.inr rfl) (.inl (by rw [hr]; simp))
                refine popResponse_inv (s := requestDisconnect S { s with status := upd s.status r k, seen := upd s.seen r (some k) } r) key hr k keep ?_ ?_
                · intro e; cases e
                · intro _
                  have := h.lost' r
                  have hkp : 0 < k := by omega
                  simpa [requestDisconnect, disconnect, Line.fin, upd, hkp] using this
              · refine popResponse_inv base hr k keep ?_ ?_
                · intro _; simp [upd]; omega
                · intro e; exact absurd hc e
          · exact closeLine_spec base true
        · next hc =>
          have key : LInv S { s with status := upd s.status r k, seen := upd s.seen r (some k), finished := s.finished ++ [(r, k)] } :=
            ⟨base.qNodup, base.rNodup, base.disj, base.ready, base.busy, base.idle, base.bytes, base.pos, base.once, base.maxr, base.req, base.tries, base.early,
              fun x => by
                rcases h.lost x with a | a
                · exact .inl a
                · right
                  simp only [Line.fin, List.map_append, List.count_append] at a ⊢
                  omega,
              fun x => by
                have a := h.lost' x
                simp only [Line.fin, List.map_append, List.count_append] at a ⊢
                omega, base.order⟩
          refine popResponse_inv key hr k keep ?_ ?_
          · intro e; exact absurd e hc
          · intro _
            have a := h.lost' r
            simpa [Line.fin] using a
      · cases he
    · cases he
  | eof =>
    simp only [lineStep] at he
    split at he
    · cases he
    · cases he; exact closeLine_spec h false
  | fail =>
    simp only [lineStep] at he
    split at he
    · cases he
    · cases he; exact closeLine_spec h true

theorem lreach_inv {S : Reqs} {ok : Line → LEv → Prop} {s : Line} (h : LReach S ok s) : LInv S s := by
  induction h with
  | init => exact linv_init S
  | step _ hl _ he ih => exact (lineStep_inv ih hl he).1

end Verif.Cli
