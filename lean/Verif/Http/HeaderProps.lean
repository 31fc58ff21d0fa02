import Verif.Http.ConnClaims
/-!
# C52: header fields are received as they were sent; how the body of a message is delimited
-/
namespace Verif.Http

/-- The order of the keys of a dictionary of header fields. -/
def keyLe (a b : Bytes × Bytes × List Bytes) : Bool := bytesLe a.1 b.1

/-- The dictionary in the order of `get_headerlist`, messages.py:1087-1093. -/
def sortHeaders (h : Headers) : Headers := h.mergeSort keyLe

/-- The lines of `send_header` without their line ends, messages.py:535-547. -/
def headerLines (h : Headers) : List Bytes := (sortHeaders h).flatMap fun e => e.2.2.map fun v => e.2.1 ++ [58, 32] ++ v

/-- `send_header`, messages.py:535-547, after `send_transferlength`. -/
def sendHeader (h : Headers) : Bytes := ((headerLines h).map (· ++ CRLF)).flatten ++ CRLF

/-! ## Specification -/

/-- A field name: not empty, no colon, no CR LF, no space or tab at the start. -/
structure FieldName (n : Bytes) : Prop where
  ne : n ≠ []
  colon : 58 ∉ n
  noCR : 13 ∉ n
  noLws : ∀ b r, n = b :: r → b ≠ 32 ∧ b ≠ 9

/-- A field value: no CR LF, no white space around it. -/
structure FieldValue (v : Bytes) : Prop where
  noCRLF : NoCRLF v
  stripped : strip v = v

/-- A dictionary of header fields as `set_header` makes it: the keys are the names in lower case, each once. -/
structure FieldDict (h : Headers) : Prop where
  keys : (h.map (·.1)).Nodup
  lower : ∀ e ∈ h, e.1 = lowerBytes e.2.1
  names : ∀ e ∈ h, FieldName e.2.1
  some : ∀ e ∈ h, e.2.2 ≠ []
  values : ∀ e ∈ h, ∀ v ∈ e.2.2, FieldValue v

/-! ## Proofs -/

theorem splitColon_append {n : Bytes} (h : 58 ∉ n) (r : Bytes) : splitColon (n ++ 58 :: r) = some (n, r) := by
  induction n with
  | nil => simp [splitColon]
  | cons b n ih =>
    simp only [List.mem_cons, not_or] at h
    rw [List.cons_append, splitColon, if_neg (Ne.symm h.1), ih h.2]; rfl

theorem parseLws_name {n : Bytes} (h : FieldName n) (r : Bytes) : parseLws (n ++ r) = none := by
  obtain ⟨b, n, rfl⟩ := List.exists_cons_of_ne_nil h.ne
  have h1 := h.noLws b n rfl
  have h2 : b ≠ 13 := fun e => h.noCR (by simp [e])
  unfold parseLws
  have ht : ¬ ((b :: n ++ r).take 2 = [13, 10]) := by
    cases n ++ r <;> simp [List.cons_append, h2]
  rw [if_neg ht]
  simp [List.cons_append, spanSp, h1.1, h1.2]

/-- The line of a field. -/
def fieldLine (p : Bytes × Bytes) : Bytes := p.1 ++ [58, 32] ++ p.2

theorem recvHeader_line {n v : Bytes} (hn : FieldName n) (s : HeadState) :
    recvHeader s (fieldLine (n, v) ++ CRLF) = .ok (flushHeader s, some (n, 32 :: v ++ CRLF)) := by
  unfold recvHeader fieldLine
  have h1 : n ++ [58, 32] ++ v ++ CRLF ≠ CRLF := by
    intro e
    have := congrArg List.length e
    simp at this
    omega
  rw [if_neg h1]
  have h2 : parseLws (n ++ [58, 32] ++ v ++ CRLF) = none := by
    have : n ++ [58, 32] ++ v ++ CRLF = n ++ ([58, 32] ++ v ++ CRLF) := by simp
    rw [this]; exact parseLws_name hn _
  have h3 : splitColon (n ++ [58, 32] ++ v ++ CRLF) = some (n, 32 :: v ++ CRLF) := by
    have : n ++ [58, 32] ++ v ++ CRLF = n ++ 58 :: (32 :: v ++ CRLF) := by simp
    rw [this]; exact splitColon_append hn.colon _
  simp only [h2, h3]

theorem strip_space {v : Bytes} (h : strip v = v) : strip (32 :: v) = v := by
  unfold strip at h ⊢
  rw [List.dropWhile_cons_of_pos (by decide)]
  exact h

theorem flushHeader_line (h : Headers) {n v : Bytes} (hv : FieldValue v) :
    flushHeader (h, some (n, 32 :: v ++ CRLF)) = setHeader h n v true := by
  unfold flushHeader
  dsimp only
  rw [show 32 :: v ++ CRLF = (32 :: v) ++ CRLF from rfl, take_crlf]
  have : ∀ x, strip (32 :: v) = strip x → setHeader h n (32 :: v) true = setHeader h n x true := by
    intro x hx; unfold setHeader; rw [hx]
  exact this v (by rw [strip_space hv.stripped, hv.stripped])

theorem recvHeaders_lines : ∀ (ps : List (Bytes × Bytes)) (s : HeadState), (∀ p ∈ ps, FieldName p.1 ∧ FieldValue p.2) →
    recvHeaders s ((ps.map fieldLine).map (· ++ CRLF) ++ [CRLF]) =
      .ok (ps.foldl (fun h p => setHeader h p.1 p.2 true) (flushHeader s), none) := by
  intro ps
  induction ps with
  | nil =>
    intro s _
    simp only [List.map_nil, List.nil_append, recvHeaders, recvHeader, if_true, List.foldl_nil]
    rfl
  | cons p ps ih =>
    intro s h
    obtain ⟨h1, h2⟩ := h p (by simp)
    simp only [List.map_cons, List.cons_append, recvHeaders]
    rw [show p = (p.1, p.2) from rfl, recvHeader_line h1]
    show recvHeaders (flushHeader s, some (p.1, 32 :: p.2 ++ CRLF)) _ = _
    rw [ih _ (fun q hq => h q (by simp [hq])), flushHeader_line _ h2]
    rfl

theorem lookup_none {h : Headers} {k : Bytes} (hk : k ∉ h.map (·.1)) : h.lookup k = none := by
  induction h with
  | nil => rfl
  | cons e h ih =>
    simp only [List.map_cons, List.mem_cons, not_or] at hk
    rw [show e = (e.1, e.2) from rfl, List.lookup, show (k == e.1) = false by simpa using hk.1]
    exact ih hk.2

theorem lookup_append_none {h r : Headers} {k : Bytes} (hk : k ∉ h.map (·.1)) : (h ++ r).lookup k = r.lookup k := by
  induction h with
  | nil => rfl
  | cons e h ih =>
    simp only [List.map_cons, List.mem_cons, not_or] at hk
    rw [List.cons_append, show e = (e.1, e.2) from rfl, List.lookup, show (k == e.1) = false by simpa using hk.1]
    exact ih hk.2

theorem put_last {h : Headers} {k : Bytes} (hk : k ∉ h.map (·.1)) (v w : Bytes × List Bytes) :
    Headers.put (h ++ [(k, v)]) k w = h ++ [(k, w)] := by
  unfold Headers.put
  rw [if_pos (by simp)]
  rw [List.map_append]
  congr 1
  · conv => rhs; rw [← List.map_id h]
    apply List.map_congr_left
    intro e he
    rw [if_neg]
    · rfl
    · intro h2; exact hk (List.mem_map.mpr ⟨e, he, by simpa using h2⟩)
  · simp

/-- The values of a field are appended one after the other. -/
theorem foldl_values {h : Headers} {n : Bytes} (hk : lowerBytes n ∉ h.map (·.1)) : ∀ (vs ws : List Bytes), vs ≠ [] → (∀ v ∈ ws, strip v = v) →
    (ws.map fun v => (n, v)).foldl (fun h p => setHeader h p.1 p.2 true) (h ++ [(lowerBytes n, n, vs)]) = h ++ [(lowerBytes n, n, vs ++ ws)] := by
  intro vs ws
  induction ws generalizing vs with
  | nil => intros; simp
  | cons w ws ih =>
    intro hv hs
    simp only [List.map_cons, List.foldl_cons]
    have : setHeader (h ++ [(lowerBytes n, n, vs)]) n w true = h ++ [(lowerBytes n, n, vs ++ [w])] := by
      unfold setHeader Headers.find
      rw [lookup_append_none hk]
      simp only [List.lookup, BEq.rfl, if_true]
      rw [put_last hk, hs w (by simp)]
    rw [this, ih (vs ++ [w]) (by simp) (fun v hv => hs v (by simp [hv]))]
    simp

theorem foldl_dict : ∀ (es acc : Headers), FieldDict (acc ++ es) →
    (es.flatMap fun e => e.2.2.map fun v => (e.2.1, v)).foldl (fun h p => setHeader h p.1 p.2 true) acc = acc ++ es := by
  intro es
  induction es with
  | nil => intro acc _; simp
  | cons e es ih =>
    intro acc D
    have hk : e.1 = lowerBytes e.2.1 := D.lower e (by simp)
    have hnot : lowerBytes e.2.1 ∉ acc.map (·.1) := by
      rw [← hk]
      have := D.keys
      rw [List.map_append, List.nodup_append] at this
      intro hm
      exact this.2.2 _ hm e.1 (by simp) rfl
    have hsome := D.some e (by simp)
    obtain ⟨v, vs, hvs⟩ := List.exists_cons_of_ne_nil hsome
    have hval := D.values e (by simp)
    rw [hvs] at hval
    rw [List.flatMap_cons, List.foldl_append, hvs]
    simp only [List.map_cons, List.foldl_cons]
    have h1 : setHeader acc e.2.1 v true = acc ++ [(lowerBytes e.2.1, e.2.1, [v])] := by
      unfold setHeader Headers.find
      rw [lookup_none hnot]
      dsimp only
      unfold Headers.put
      rw [if_neg]
      · rw [(hval v (by simp)).stripped]
      · intro h
        obtain ⟨x, hx, he⟩ := List.any_eq_true.mp h
        exact hnot (List.mem_map.mpr ⟨x, hx, by simpa using he⟩)
    rw [h1, foldl_values hnot [v] vs (by simp) (fun w hw => (hval w (by simp [hw])).stripped)]
    have h2 : acc ++ [(lowerBytes e.2.1, e.2.1, [v] ++ vs)] = acc ++ [e] := by
      rw [show e = (e.1, e.2.1, e.2.2) from rfl, hvs, ← hk]; rfl
    rw [h2, ih (acc ++ [e]) (by simpa using D)]
    simp

theorem FieldDict.perm {h h' : Headers} (p : h.Perm h') (D : FieldDict h) : FieldDict h' where
  keys := (p.map _).nodup_iff.mp D.keys
  lower := fun e he => D.lower e (p.mem_iff.mpr he)
  names := fun e he => D.names e (p.mem_iff.mpr he)
  some := fun e he => D.some e (p.mem_iff.mpr he)
  values := fun e he => D.values e (p.mem_iff.mpr he)

theorem sortHeaders_perm (h : Headers) : (sortHeaders h).Perm h := List.mergeSort_perm _ _

theorem headerLines_eq (h : Headers) : headerLines h = ((sortHeaders h).flatMap fun e => e.2.2.map fun v => (e.2.1, v)).map fieldLine := by
  unfold headerLines fieldLine
  simp [List.map_flatMap, Function.comp_def]

theorem field_lines {h : Headers} (D : FieldDict h) : Lines (headerLines h) := by
  intro l hl
  unfold headerLines at hl
  simp only [List.mem_flatMap, List.mem_map] at hl
  obtain ⟨e, he, v, hv, rfl⟩ := hl
  have he' := (sortHeaders_perm h).mem_iff.mp he
  have hn := D.names e he'
  have hvv := D.values e he' v hv
  refine ⟨by simp, ?_⟩
  intro a b heq
  -- CR LF would be in the name, across the colon, or in the value
  have h3 : ∀ (x y : Bytes), 13 ∉ x → NoCRLF y → ∀ a b, x ++ y ≠ a ++ 13 :: 10 :: b := by
    intro x y hx hy
    induction x with
    | nil => intro a b; rw [List.nil_append]; exact hy a b
    | cons c x ih =>
      intro a b e
      simp only [List.mem_cons, not_or] at hx
      cases a with
      | nil => simp only [List.cons_append, List.nil_append, List.cons.injEq] at e; exact hx.1 e.1.symm
      | cons d a => simp only [List.cons_append, List.cons.injEq] at e; exact ih hx.2 a b e.2
  exact h3 (e.2.1 ++ [58, 32]) v (by simp [hn.noCR]) hvv.noCRLF a b heq

/-- **C52**: the header fields that are sent are received: the same dictionary, in the order of the keys, with the values of a field
that occurs more than once in their order. -/
theorem C52_fields {h : Headers} (D : FieldDict h) : Lines (headerLines h) ∧ Fields [] (headerLines h) (sortHeaders h) ∧
    sendHeader h = block (headerLines h) := by
  refine ⟨field_lines D, ?_, rfl⟩
  unfold Fields
  rw [headerLines_eq, recvHeaders_lines]
  · have Ds := D.perm (sortHeaders_perm h).symm
    have := foldl_dict (sortHeaders h) [] (by simpa using Ds)
    simp only [List.nil_append] at this
    rw [show flushHeader ([], none) = [] from rfl, this]
  · intro p hp
    simp only [List.mem_flatMap, List.mem_map] at hp
    obtain ⟨e, he, v, hv, rfl⟩ := hp
    have he' := (sortHeaders_perm h).mem_iff.mp he
    exact ⟨D.names e he', D.values e he' v hv⟩

theorem lookup_mem {h : Headers} (hn : (h.map (·.1)).Nodup) {k : Bytes} {v : Bytes × List Bytes} : h.lookup k = some v ↔ (k, v) ∈ h := by
  induction h with
  | nil => simp
  | cons e h ih =>
    simp only [List.map_cons, List.nodup_cons] at hn
    rw [show e = (e.1, e.2) from rfl, List.lookup]
    by_cases hk : k = e.1
    · subst hk
      simp only [BEq.rfl, List.mem_cons, Prod.mk.injEq, true_and]
      constructor
      · intro h2; exact .inl (Option.some.inj h2).symm
      · rintro (h2 | h2)
        · rw [h2]
        · exact absurd (List.mem_map.mpr ⟨_, h2, rfl⟩) hn.1
    · rw [show (k == e.1) = false by simpa using hk]
      simp only [List.mem_cons, Prod.mk.injEq, hk, false_and, false_or]
      exact ih hn.2

theorem lookup_perm {h h' : Headers} (p : h.Perm h') (hn : (h.map (·.1)).Nodup) (k : Bytes) : h.lookup k = h'.lookup k := by
  have hn' : (h'.map (·.1)).Nodup := (p.map _).nodup_iff.mp hn
  have : ∀ v, h.lookup k = some v ↔ h'.lookup k = some v := fun v => by rw [lookup_mem hn, lookup_mem hn', p.mem_iff]
  cases h1 : h.lookup k with
  | none =>
    cases h2 : h'.lookup k with
    | none => rfl
    | some v => rw [(this v).mpr h2] at h1; cases h1
  | some v => rw [(this v).mp h1]

theorem getHeader_sorted {h : Headers} (D : FieldDict h) (n : Bytes) : getHeader (sortHeaders h) n = getHeader h n := by
  unfold getHeader Headers.find
  rw [lookup_perm (sortHeaders_perm h) (D.perm (sortHeaders_perm h).symm).keys]

/-! ### How the body is delimited -/

/-- **C52**: a response without a body by its status or because of a HEAD request. -/
theorem C52_no_body (head : Bool) (status : Nat) (h : Headers) (hs : status / 100 = 1 ∨ status = 204 ∨ status = 304 ∨ head = true) :
    responseFrame head status h = .ok ⟨false, some 0, none⟩ := by
  unfold responseFrame; rw [if_pos hs]

/-- **C52**: a message whose Transfer-Encoding is `chunked`: the body is delimited by its chunks, whatever Content-Length says. -/
theorem C52_chunked (status : Nat) (h : Headers) (hs : ¬ (status / 100 = 1 ∨ status = 204 ∨ status = 304))
    (ht : getHeader h sTransferEncoding = some chunkedToken) : responseFrame false status h = .ok ⟨true, none, none⟩ := by
  unfold responseFrame
  rw [if_neg (by simp only [Bool.false_eq_true, or_false]; exact hs)]
  have h1 : getTransferEncoding h = .ok (some [⟨chunkedToken, []⟩]) := by
    unfold getTransferEncoding
    rw [ht]
    dsimp only
    have : lift (TransferEncoding.listFromStr chunkedToken) = .ok [⟨chunkedToken, []⟩] := by decide +kernel
    rw [this]
    rfl
  unfold recvFrame
  rw [h1]
  show (if [(⟨chunkedToken, []⟩ : TransferEncoding)].length = 1 ∧ chunkedToken = sIdentity then recvFrame.byLength h
    else _) = _
  rw [if_neg (by decide)]
  rfl

/-- **C52**: with several codings the last one decides; the other ones may be `identity`. -/
theorem C52_codings (status : Nat) (h : Headers) (hs : ¬ (status / 100 = 1 ∨ status = 204 ∨ status = 304)) (l : List TransferEncoding) (te : TransferEncoding)
    (ht : getTransferEncoding h = .ok (some (l ++ [te]))) (hid : ∀ t ∈ l, t.token = sIdentity) (hne : l ≠ [] ∨ te.token ≠ sIdentity) :
    responseFrame false status h = .ok ⟨te.token = chunkedToken, none, none⟩ := by
  unfold responseFrame
  rw [if_neg (by simp only [Bool.false_eq_true, or_false]; exact hs)]
  unfold recvFrame
  rw [ht]
  obtain ⟨t, ts, hl⟩ : ∃ t ts, l ++ [te] = t :: ts := by cases l <;> simp
  simp only [bind, Except.bind, hl]
  rw [if_neg]
  · have ho : ∀ l : List TransferEncoding, (∀ t ∈ l, t.token = sIdentity) → outerCodings l = .ok () := by
      intro l
      induction l with
      | nil => intro _; rfl
      | cons t l ih =>
        intro h
        rw [outerCodings, h t (by simp), if_neg (by decide), if_pos rfl]
        exact ih (fun x hx => h x (by simp [hx]))
    rw [← hl, ho _ (by rw [List.dropLast_concat]; intro t ht; exact hid t (by simpa using ht))]
    simp [pure, Except.pure]
  · rintro ⟨h1, h2⟩
    rw [← hl] at h1
    simp only [List.length_append, List.length_singleton] at h1
    have : l = [] := List.length_eq_zero_iff.mp (by omega)
    subst this
    simp only [List.nil_append, List.cons.injEq] at hl
    rcases hne with h | h
    · exact h rfl
    · rw [hl.1] at h; exact h h2

example : getTransferEncoding [(lowerBytes sTransferEncoding, sTransferEncoding, [sIdentity, chunkedToken])] =
    .ok (some ([⟨sIdentity, []⟩] ++ [⟨chunkedToken, []⟩])) := by decide +kernel

theorem intOf_decStr (n : Nat) : intOf (Text.decStr n) = some (n : Int) := by
  have hd := Text.decStr_isDigit n
  have hns : ∀ b ∈ Text.decStr n, isStrip b = false := by
    intro b hb
    have := hd b hb
    simp only [Text.isDigit, Bool.and_eq_true, decide_eq_true_eq] at this
    simp [isStrip]; omega
  have hst : strip (Text.decStr n) = Text.decStr n := by
    unfold strip
    have h1 : ∀ l : Bytes, (∀ b ∈ l, isStrip b = false) → l.dropWhile isStrip = l := by
      intro l hl
      cases l with
      | nil => rfl
      | cons b l => rw [List.dropWhile_cons_of_neg (by rw [hl b (by simp)]; simp)]
    rw [h1 _ hns, h1 _ (fun b hb => hns b (by simpa using hb)), List.reverse_reverse]
  have hsp : ∀ l : Bytes, l ≠ [] → (∀ b ∈ l, Text.isDigit b = true) → splitByte 95 l = [l] := by
    intro l hl h
    induction l with
    | nil => exact absurd rfl hl
    | cons b l ih =>
      have hb := h b (by simp)
      simp only [Text.isDigit, Bool.and_eq_true, decide_eq_true_eq] at hb
      rw [splitByte, if_neg (by omega)]
      cases l with
      | nil => rfl
      | cons c l => rw [ih (by simp) (fun x hx => h x (by simp [hx]))]
  have hne := Text.decStr_ne_nil n
  obtain ⟨b, r, hbr⟩ := List.exists_cons_of_ne_nil hne
  have hb := hd b (by rw [hbr]; simp)
  simp only [Text.isDigit, Bool.and_eq_true, decide_eq_true_eq] at hb
  have hf : (Text.decStr n).filter (· != 95) = Text.decStr n := by
    rw [List.filter_eq_self]
    intro x hx
    have := hd x hx
    simp only [Text.isDigit, Bool.and_eq_true, decide_eq_true_eq] at this
    simp; omega
  unfold intOf
  rw [hst]
  dsimp only
  split
  · rename_i d heq; rw [hbr] at heq; simp only [List.cons.injEq] at heq; omega
  · rename_i d heq; rw [hbr] at heq; simp only [List.cons.injEq] at heq; omega
  · rw [if_pos, hf, Text.decVal_decStr]
    rw [hsp _ hne hd]
    simp only [List.all_cons, List.all_nil, Bool.and_true, isDigits, Bool.and_eq_true, Bool.not_eq_true', List.all_eq_true]
    exact ⟨by simpa using hne, hd⟩

/-- **C52**: without Transfer-Encoding, Content-Length says how long the body is. -/
theorem C52_length (status : Nat) (h : Headers) (hs : ¬ (status / 100 = 1 ∨ status = 204 ∨ status = 304)) (n : Nat)
    (ht : getHeader h sTransferEncoding = none) (hc : getHeader h sContentLength = some (Text.decStr n)) :
    responseFrame false status h = .ok ⟨false, some (n : Int), none⟩ := by
  unfold responseFrame
  rw [if_neg (by simp only [Bool.false_eq_true, or_false]; exact hs)]
  unfold recvFrame getTransferEncoding
  rw [ht]
  show recvFrame.byLength h = _
  unfold recvFrame.byLength getContentLength
  rw [hc]
  have hi := intOf_decStr n
  dsimp only
  rw [hi]
  rfl

/-- **C52** needs the condition on values: a value with CR LF is sent as it is and received as another header field
(messages.py:1126-1154 does not refuse it). -/
theorem C52_injection_violation : ∃ h h', h = setHeader [] [120] [97, 13, 10, 121, 58, 98] false ∧
    recvHeaders ([], none) ((splitCRLF ((sendHeader h).take ((sendHeader h).length - 2))).map (· ++ CRLF)) = .ok (h', none) ∧
    getHeader h' [120] = some [97] ∧ getHeader h [121] = none ∧ getHeader h' [121] = some [98] :=
  ⟨_, [([120], [120], [[97]]), ([121], [121], [[98]])], rfl, by decide +kernel, by decide +kernel, by decide +kernel, by decide +kernel⟩

/-- A negative Content-Length is accepted; with -2 the message asks for a line in the middle of the body. -/
theorem C52_negative_violation : ∃ h f, getHeader h sContentLength = some [45, 50] ∧ responseFrame false 200 h = .ok f ∧
    (({ newMsg [] with start := some st200, headers := h } : Msg).setFrame f).recvMode = some (-2) :=
  ⟨[(lowerBytes sContentLength, sContentLength, [[45, 50]])], ⟨false, some (-2), none⟩, by decide +kernel, by decide +kernel, by decide +kernel⟩

example : FieldDict [([120], [88], [[97, 44], [98]]), ([97, 45, 98], [65, 45, 66], [[]])] where
  keys := by decide
  lower := by decide
  names := by
    intro e he
    simp only [List.mem_cons, List.not_mem_nil, or_false] at he
    rcases he with rfl | rfl
    · exact ⟨by simp, by simp, by simp, by intro b r h; cases h; decide⟩
    · exact ⟨by simp, by simp, by simp, by intro b r h; cases h; decide⟩
  some := by decide
  values := by
    intro e he v hv
    simp only [List.mem_cons, List.not_mem_nil, or_false] at he
    rcases he with rfl | rfl
    · simp only [List.mem_cons, List.not_mem_nil, or_false] at hv
      rcases hv with rfl | rfl <;> exact ⟨by decide, by decide⟩
    · simp only [List.mem_cons, List.not_mem_nil, or_false] at hv
      subst hv
      exact ⟨by decide, by decide⟩

end Verif.Http
