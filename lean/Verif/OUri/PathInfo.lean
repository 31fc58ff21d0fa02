import Verif.Text.Utf8
import Verif.Uri.EscapeProps
import Verif.Uri.Path
/-!
# C130: putting back the escapes that a WSGI server has removed from the path

`Server.encode_pathinfo`, `pyslet/odata2/server.py`: the path of a request reaches the application without its
percent escapes; the data service needs a URI, in which a "/" that came from inside a quoted key is not a separator.
-/
namespace Verif.OUri

open Verif.Text Verif.Uri

/-- `uri.is_path_segment_reserved`, rfc2396.py:443-444: "/;=?" -/
def segReserved (c : Nat) : Bool := c == 47 || c == 59 || c == 61 || c == 63

/-- `for b in c.encode('utf-8'): result.append("%%%02X" % byte_value(b))`, server.py:255-256, 268-269. -/
def pctChar (c : Nat) : Str := (encodeChar c).flatMap percent

/-- What one pass of the loop of `encode_pathinfo`, server.py:251-272, appends for the character. -/
def encOne (qmode : Bool) (c : Nat) : Str :=
  if qmode then
    if segReserved c || !(isUnreserved c || isReserved c) then pctChar c else [c]
  else if c == 39 then [c]
  else if c == 63 then [37, 51, 70]
  else if !(isUnreserved c || isReserved c) then pctChar c
  else [c]

/-- The value of `qmode` after the character, server.py:259-263. -/
def nextMode (qmode : Bool) (c : Nat) : Bool := if c == 39 then !qmode else qmode

/-- The loop of `encode_pathinfo`, server.py:251-273. -/
def encodeLoop : Bool → Str → Str
  | _, [] => []
  | q, c :: r => encOne q c ++ encodeLoop (nextMode q c) r

/-- `encode_pathinfo(pathinfo)`, server.py:211-274, on text; `none` is the UnicodeEncodeError for a surrogate (every
surrogate is encoded by one of the two inner loops). -/
def encodePathinfo (s : Str) : Option Str :=
  if s.all (fun c => decide (Scalar c)) then some (encodeLoop false s) else none

/-! ## Specification -/

/-- The text without its percent escapes: `uri.unescape_data(t).decode('utf-8')`. -/
def decoded (t : Str) : Option Str := (unescapeData t).bind utf8Decode

/-- The pieces of a path between the "/" that are outside quotes: a "/" is outside when an even number of quotes
comes before it. -/
def splitOutside (before : Str) : Str → List Str
  | [] => [[]]
  | c :: r =>
    if c = 47 ∧ before.count 39 % 2 = 0 then [] :: splitOutside (before ++ [c]) r
    else match splitOutside (before ++ [c]) r with
      | [] => [[c]]
      | w :: ws => (c :: w) :: ws

/-! ## Proofs -/

/-- The items of one character. -/
def itemsOne (q : Bool) (c : Nat) : List Item :=
  if encOne q c = [c] then [.lit c] else (encodeChar c).map fun b => .esc (hexDigit (b / 16)) (hexDigit (b % 16))

theorem encodeChar_lt {c : Nat} (h : Scalar c) : ∀ b ∈ encodeChar c, b < 256 := by
  unfold Scalar at h
  unfold encodeChar
  intro b hb
  split at hb
  · simp at hb; omega
  · split at hb
    · simp at hb; omega
    · split at hb
      · simp at hb; omega
      · simp at hb; omega

theorem pctChar_items (c : Nat) :
    pctChar c = textOf ((encodeChar c).map fun b => Item.esc (hexDigit (b / 16)) (hexDigit (b % 16))) := by
  simp only [pctChar, textOf, List.flatMap_map]
  rfl

theorem pctChar_q : pctChar 63 = [37, 51, 70] := by decide

/-- What is emitted is the character itself, which is then an allowed ASCII character, or its escapes. -/
theorem encOne_cases (q : Bool) (c : Nat) :
    (encOne q c = [c] ∧ isAllowed c = true ∧ c ≠ 63 ∧ (q = true → segReserved c = false)) ∨ encOne q c = pctChar c := by
  unfold encOne
  have hall : (isUnreserved c || isReserved c) = isAllowed c := by unfold isAllowed; rw [Bool.or_comm]
  rw [hall]
  cases q with
  | true =>
    simp only [if_true]
    split
    · exact .inr rfl
    · next h =>
      simp only [Bool.or_eq_true, Bool.not_eq_true', not_or, Bool.not_eq_true, Bool.not_eq_false] at h
      refine .inl ⟨rfl, h.2, ?_, fun _ => h.1⟩
      rintro rfl; exact absurd h.1 (by decide)
  | false =>
    simp only [Bool.false_eq_true, if_false]
    split
    · next h =>
      have : c = 39 := by simpa using h
      subst this
      exact .inl ⟨rfl, by decide, by decide, fun h => by cases h⟩
    · split
      · next h =>
        have : c = 63 := by simpa using h
        subst this
        exact .inr pctChar_q.symm
      · next h =>
        split
        · exact .inr rfl
        · next h' => exact .inl ⟨rfl, by simpa using h', by simpa using h, fun h => by cases h⟩

theorem encOne_items {q : Bool} {c : Nat} (h : Scalar c) :
    ∃ is : List Item, encOne q c = textOf is ∧ (∀ i ∈ is, i.Ok isAllowed) ∧ octetsOf is = encodeChar c := by
  rcases encOne_cases q c with ⟨he, ha, -, -⟩ | he
  · have hc := isAllowed_ascii c ha
    refine ⟨[.lit c], he, ?_, ?_⟩
    · intro i hi; simp at hi; subst hi; exact ⟨ha, hc.2⟩
    · simp [octetsOf, Item.octet, encodeChar, hc.1]
  · refine ⟨_, he.trans (pctChar_items c), ?_, ?_⟩
    · intro i hi
      simp only [List.mem_map] at hi
      obtain ⟨b, hb, rfl⟩ := hi
      exact percent_ok isAllowed (encodeChar_lt h b hb)
    · simp only [octetsOf, List.map_map]
      conv => rhs; rw [← List.map_id (encodeChar c)]
      apply List.map_congr_left
      intro b hb
      exact percent_octet (encodeChar_lt h b hb)

theorem encodeLoop_items (s : Str) (hs : ∀ c ∈ s, Scalar c) : ∀ q, ∃ is : List Item,
    encodeLoop q s = textOf is ∧ (∀ i ∈ is, i.Ok isAllowed) ∧ octetsOf is = s.flatMap encodeChar := by
  induction s with
  | nil => intro q; exact ⟨[], rfl, by simp, rfl⟩
  | cons c r ih =>
    intro q
    obtain ⟨is, h1, h2, h3⟩ := encOne_items (q := q) (hs c (by simp))
    obtain ⟨js, k1, k2, k3⟩ := ih (fun x hx => hs x (by simp [hx])) (nextMode q c)
    refine ⟨is ++ js, ?_, ?_, ?_⟩
    · simp only [encodeLoop, h1, k1, textOf, List.flatMap_append]
    · intro i hi
      rcases List.mem_append.mp hi with hi | hi
      · exact h2 i hi
      · exact k2 i hi
    · simp only [octetsOf] at h3 k3
      simp only [octetsOf, List.map_append, h3, k3, List.flatMap_cons]

theorem textOf_all_ascii {is : List Item} (h : ∀ i ∈ is, i.Ok isAllowed) : ∀ c ∈ textOf is, c < 128 := by
  intro c hc
  simp only [textOf, List.mem_flatMap] at hc
  obtain ⟨i, hi, hc⟩ := hc
  have := h i hi
  cases i with
  | lit x => simp [Item.text] at hc; subst hc; exact (isAllowed_ascii _ this.1).1
  | esc x y =>
    simp [Item.text] at hc
    rcases hc with rfl | rfl | rfl
    · omega
    · exact isHex_lt this.1
    · exact isHex_lt this.2

theorem decoded_items {is : List Item} {s : Str} (h : ∀ i ∈ is, i.Ok isAllowed) (ho : octetsOf is = s.flatMap encodeChar)
    (hs : ∀ c ∈ s, Scalar c) : decoded (textOf is) = some s := by
  have ha : (textOf is).all (· < 128) = true := by
    rw [List.all_eq_true]; intro c hc; simpa using textOf_all_ascii h c hc
  have hu : unescapeLoop .none (textOf is) = octetsOf is := by
    have := unescapeLoop_textOf isAllowed is h []
    simpa [unescapeLoop] using this
  have he : utf8Encode s = some (s.flatMap encodeChar) := by
    simp only [utf8Encode]; rw [if_pos]
    rw [List.all_eq_true]; intro c hc; simpa using hs c hc
  simp only [decoded, unescapeData, ha, if_true, Option.bind_some, hu, ho]
  exact utf8_round_trip s _ he

/-- C130: whatever the path, what is returned is a well formed run of URI characters and escapes, and taking the
escapes out gives back the path; only text that has no UTF-8 encoding is refused. -/
theorem C130_decodes (s : Str) (hs : ∀ c ∈ s, Scalar c) :
    ∃ t, encodePathinfo s = some t ∧ Uric isAllowed t ∧ decoded t = some s := by
  obtain ⟨is, h1, h2, h3⟩ := encodeLoop_items s hs false
  have : s.all (fun c => decide (Scalar c)) = true := by
    rw [List.all_eq_true]; intro c hc; simpa using hs c hc
  refine ⟨encodeLoop false s, by simp [encodePathinfo, this], ⟨is, h2, h1.symm⟩, ?_⟩
  rw [h1]; exact decoded_items h2 h3 hs

theorem C130_refuses (s : Str) : encodePathinfo s = none ↔ ∃ c ∈ s, ¬ Scalar c := by
  unfold encodePathinfo
  split
  · next h => simp only [reduceCtorEq, false_iff]; rintro ⟨c, hc, h'⟩; rw [List.all_eq_true] at h; exact h' (by simpa using h c hc)
  · next h =>
    simp only [true_iff]
    simpa using h

/-! ### The separators -/

theorem pctChar_no (c x : Nat) (hx : x ∈ pctChar c) (hs : Scalar c) : x ≠ 47 ∧ x ≠ 63 ∧ x ≠ 59 ∧ x ≠ 61 ∧ x ≠ 39 := by
  simp only [pctChar, List.mem_flatMap] at hx
  obtain ⟨b, hb, hx⟩ := hx
  have hb := encodeChar_lt hs b hb
  have hdig : ∀ n, n < 16 → hexDigit n ≠ 47 ∧ hexDigit n ≠ 63 ∧ hexDigit n ≠ 59 ∧ hexDigit n ≠ 61 ∧ hexDigit n ≠ 39 := by decide
  simp only [percent, List.mem_cons, List.not_mem_nil, or_false] at hx
  rcases hx with rfl | rfl | rfl
  · decide
  · exact hdig _ (by omega)
  · exact hdig _ (by omega)

/-- C130: no "?" is left raw. -/
theorem C130_no_query (s t : Str) (h : encodePathinfo s = some t) : 63 ∉ t := by
  unfold encodePathinfo at h
  split at h
  · next ha =>
    cases h
    rw [List.all_eq_true] at ha
    have hs : ∀ c ∈ s, Scalar c := fun c hc => by simpa using ha c hc
    clear ha
    suffices ∀ q, 63 ∉ encodeLoop q s from this false
    induction s with
    | nil => intro q; simp [encodeLoop]
    | cons c r ih =>
      intro q hm
      simp only [encodeLoop, List.mem_append] at hm
      rcases hm with hm | hm
      · rcases encOne_cases q c with ⟨he, -, hc, -⟩ | he
        · rw [he] at hm; simp at hm; exact hc hm.symm
        · rw [he] at hm; exact (pctChar_no c 63 hm (hs c (by simp))).2.1 rfl
      · exact ih (fun x hx => hs x (by simp [hx])) _ hm
  · cases h

theorem nextMode_count (before : Str) (c : Nat) (q : Bool) (h : q = decide (before.count 39 % 2 = 1)) :
    nextMode q c = decide ((before ++ [c]).count 39 % 2 = 1) := by
  subst h
  unfold nextMode
  by_cases hc : c = 39
  · subst hc
    simp only [beq_self_eq_true, if_true, List.count_append, List.count_singleton]
    rcases Nat.mod_two_eq_zero_or_one (before.count 39) with h | h
    · rw [Nat.add_mod, h]; rfl
    · rw [Nat.add_mod, h]; rfl
  · have : (c == 39) = false := by simpa using hc
    simp [this, List.count_append, List.count_singleton]

theorem splitOn_ne_nil (sep : Nat) (s : Str) : splitOn sep s ≠ [] := by
  cases s with
  | nil => simp [splitOn]
  | cons c r => unfold splitOn; split; · simp
                split <;> simp

theorem splitOutside_ne_nil (b s : Str) : splitOutside b s ≠ [] := by
  cases s with
  | nil => simp [splitOutside]
  | cons c r => unfold splitOutside; split; · simp
                split <;> simp

theorem splitOn_prefix {sep : Nat} (a : Str) (ha : sep ∉ a) (t w : Str) (ws : List Str) (h : splitOn sep t = w :: ws) :
    splitOn sep (a ++ t) = (a ++ w) :: ws := by
  induction a with
  | nil => exact h
  | cons x a ih =>
    have hx : x ≠ sep := by rintro rfl; simp at ha
    have := ih (by intro hm; exact ha (by simp [hm]))
    simp only [List.cons_append]
    unfold splitOn
    rw [if_neg hx, this]

/-- Pairing up lists: the pieces of the encoded path and those of the path. -/
inductive AllDecode : List Str → List Str → Prop
  | nil : AllDecode [] []
  | cons {t s : Str} {ts ss : List Str} (h : ∃ is : List Item, t = textOf is ∧ (∀ i ∈ is, i.Ok isAllowed) ∧
      octetsOf is = s.flatMap encodeChar) (hs : ∀ c ∈ s, Scalar c) (r : AllDecode ts ss) : AllDecode (t :: ts) (s :: ss)

theorem encodeLoop_split (s : Str) : ∀ (before : Str) (q : Bool), q = decide (before.count 39 % 2 = 1) →
    (∀ c ∈ s, Scalar c) → AllDecode (splitOn 47 (encodeLoop q s)) (splitOutside before s) := by
  induction s with
  | nil =>
    intro before q _ _
    exact .cons ⟨[], rfl, by simp, rfl⟩ (by simp) .nil
  | cons c r ih =>
    intro before q hq hs
    have hsc := hs c (by simp)
    have ih := ih (before ++ [c]) (nextMode q c) (nextMode_count before c q hq) (fun x hx => hs x (by simp [hx]))
    by_cases hsep : c = 47 ∧ before.count 39 % 2 = 0
    · obtain ⟨rfl, hb⟩ := hsep
      have hq' : q = false := by subst hq; simp [hb]
      have he : encOne q 47 = [47] := by subst hq'; decide
      unfold splitOutside
      rw [if_pos ⟨rfl, hb⟩]
      simp only [encodeLoop, he, List.singleton_append]
      unfold splitOn
      rw [if_pos rfl]
      exact .cons ⟨[], rfl, by simp, rfl⟩ (by simp) ih
    · have hno : 47 ∉ encOne q c := by
        intro hm
        rcases encOne_cases q c with ⟨he, -, -, hr⟩ | he
        · rw [he] at hm
          simp at hm
          subst hm
          have hb : before.count 39 % 2 = 1 := by
            rcases Nat.mod_two_eq_zero_or_one (before.count 39) with h | h
            · exact absurd ⟨rfl, h⟩ hsep
            · exact h
          have : q = true := by rw [hq]; simp [hb]
          exact absurd (hr this) (by decide)
        · rw [he] at hm
          exact (pctChar_no c 47 hm hsc).1 rfl
      unfold splitOutside
      rw [if_neg hsep]
      simp only [encodeLoop]
      generalize hA : splitOn 47 (encodeLoop (nextMode q c) r) = A at ih
      generalize hB : splitOutside (before ++ [c]) r = B at ih
      cases ih with
      | nil => exact absurd hA (splitOn_ne_nil _ _)
      | cons h hs' rest =>
        rw [splitOn_prefix _ hno _ _ _ hA]
        obtain ⟨js, k1, k2, k3⟩ := h
        obtain ⟨is, h1, h2, h3⟩ := encOne_items (q := q) hsc
        refine .cons ⟨is ++ js, ?_, ?_, ?_⟩ ?_ rest
        · simp only [h1, k1, textOf, List.flatMap_append]
        · intro i hi
          rcases List.mem_append.mp hi with hi | hi
          · exact h2 i hi
          · exact k2 i hi
        · simp only [octetsOf] at h3 k3
          simp only [octetsOf, List.map_append, h3, k3, List.flatMap_cons]
        · intro x hx
          rcases List.mem_cons.mp hx with rfl | hx
          · exact hsc
          · exact hs' x hx

theorem AllDecode.decoded {ts ss : List Str} (h : AllDecode ts ss) : ts.map decoded = ss.map some := by
  induction h with
  | nil => rfl
  | cons h hs _ ih =>
    obtain ⟨is, rfl, h2, h3⟩ := h
    simp only [List.map_cons, ih, decoded_items h2 h3 hs]

/-- C130: the separators of the path returned are exactly the "/" of the path given that are outside quotes: splitting
the result at "/" and taking the escapes out of the pieces gives the pieces of the path between those. -/
theorem C130_separators (s t : Str) (h : encodePathinfo s = some t) :
    (splitOn 47 t).map decoded = (splitOutside [] s).map some := by
  unfold encodePathinfo at h
  split at h
  · next ha =>
    cases h
    rw [List.all_eq_true] at ha
    exact (encodeLoop_split s [] false rfl (fun c hc => by simpa using ha c hc)).decoded
  · cases h

/-- A segment in which the quotes pair up and "/" only comes inside quotes. -/
def Balanced (w : Str) : Prop :=
  w.count 39 % 2 = 0 ∧ ∀ a b, w = a ++ 47 :: b → a.count 39 % 2 = 1

theorem splitOutside_balanced (w : Str) : ∀ (pre : Str) (rest : Str),
    (pre.count 39 + w.count 39) % 2 = 0 → (∀ a b, w = a ++ 47 :: b → (pre.count 39 + a.count 39) % 2 = 1) →
    ∃ v vs, splitOutside (pre ++ w) rest = v :: vs ∧ splitOutside pre (w ++ rest) = (w ++ v) :: vs := by
  induction w with
  | nil =>
    intro pre rest _ _
    cases h : splitOutside pre rest with
    | nil => exact absurd h (splitOutside_ne_nil _ _)
    | cons v vs => exact ⟨v, vs, by simpa using h, by simpa using h⟩
  | cons c w ih =>
    intro pre rest h1 h2
    obtain ⟨v, vs, k1, k2⟩ := ih (pre ++ [c]) rest (by
        simp only [List.count_append, List.count_cons, List.count_nil] at *; omega) (by
        intro a b hab
        have := h2 (c :: a) b (by rw [hab]; rfl)
        simp only [List.count_append, List.count_cons, List.count_nil] at *; omega)
    refine ⟨v, vs, by simpa using k1, ?_⟩
    simp only [List.cons_append]
    unfold splitOutside
    rw [if_neg, k2]
    rintro ⟨rfl, hb⟩
    have := h2 [] w rfl
    simp only [List.count_nil] at this
    omega

/-- C130: a URL path whose segments decode to names and keys in which quotes pair up and "/" is only inside quotes comes
through the server's decoding unharmed: the segments of the path returned decode to those very segments. -/
theorem C130_segments_survive (ws : List Str) (hne : ws ≠ []) (hb : ∀ w ∈ ws, Balanced w) (hs : ∀ w ∈ ws, ∀ c ∈ w, Scalar c) :
    ∃ t, encodePathinfo (joinWith 47 ws) = some t ∧ (splitOn 47 t).map decoded = ws.map some := by
  have hscal : ∀ c ∈ joinWith 47 ws, Scalar c := by
    clear hb hne
    induction ws with
    | nil => simp [joinWith]
    | cons w ws ih =>
      intro c hc
      cases ws with
      | nil => exact hs w (by simp) c (by simpa [joinWith] using hc)
      | cons w' ws =>
        simp only [joinWith, List.mem_append, List.mem_cons] at hc
        rcases hc with hc | rfl | hc
        · exact hs w (by simp) c hc
        · decide
        · exact ih (fun w h => hs w (by simp [h])) c (by simpa [joinWith] using hc)
  have hall : (joinWith 47 ws).all (fun c => decide (Scalar c)) = true := by
    rw [List.all_eq_true]; intro c hc; simpa using hscal c hc
  have he : encodePathinfo (joinWith 47 ws) = some (encodeLoop false (joinWith 47 ws)) := by simp [encodePathinfo, hall]
  refine ⟨_, he, ?_⟩
  rw [C130_separators _ _ he]
  congr 1
  suffices ∀ pre : Str, pre.count 39 % 2 = 0 → splitOutside pre (joinWith 47 ws) = ws from this [] rfl
  clear he hall hscal hs
  induction ws with
  | nil => exact absurd rfl hne
  | cons w ws ih =>
    intro pre hpre
    have hw := hb w (by simp)
    have hw1 : (pre.count 39 + w.count 39) % 2 = 0 := by have := hw.1; omega
    have hw2 : ∀ a b, w = a ++ 47 :: b → (pre.count 39 + a.count 39) % 2 = 1 := by
      intro a b hab; have := hw.2 a b hab; omega
    cases ws with
    | nil =>
      obtain ⟨v, vs, k1, k2⟩ := splitOutside_balanced w pre [] hw1 hw2
      simp only [splitOutside, List.cons.injEq] at k1
      simp only [List.append_nil] at k2
      simp only [joinWith, k2, ← k1.1, ← k1.2, List.append_nil]
    | cons w' ws =>
      obtain ⟨v, vs, k1, k2⟩ := splitOutside_balanced w pre (47 :: joinWith 47 (w' :: ws)) hw1 hw2
      have hp : (pre ++ w).count 39 % 2 = 0 := by rw [List.count_append]; exact hw1
      have ih := ih (by simp) (fun w h => hb w (by simp [h])) ((pre ++ w) ++ [47]) (by
        rw [List.count_append]; simpa using hp)
      unfold splitOutside at k1
      rw [if_pos ⟨rfl, hp⟩, ih, List.cons.injEq] at k1
      simp only [joinWith]
      rw [k2, ← k1.1, ← k1.2, List.append_nil]

/-- The path /S('a/b')/P%? : the "/" in the key is escaped, so are "%" and "?". -/
example : encodePathinfo [47, 83, 40, 39, 97, 47, 98, 39, 41, 47, 80, 37, 63] =
    some [47, 83, 40, 39, 97, 37, 50, 70, 98, 39, 41, 47, 80, 37, 50, 53, 37, 51, 70] := by decide
/-- Non-vacuity of `C130_segments_survive`: "", "S('a/b')", "P". -/
example : Balanced [83, 40, 39, 97, 47, 98, 39, 41] := by
  refine ⟨by decide, ?_⟩
  intro a b h
  match a, h with
  | [_, _, _, _], h => simp at h; obtain ⟨rfl, rfl, rfl, rfl, -⟩ := h; decide
  | [], h | [_], h | [_, _], h | [_, _, _], h | [_, _, _, _, _], h | [_, _, _, _, _, _], h | [_, _, _, _, _, _, _], h => simp at h
  | _ :: _ :: _ :: _ :: _ :: _ :: _ :: _ :: _, h => simp at h
/-- Violation of the plain reading: a quote that is not part of a pair makes every later "/" part of its segment:
/it's/x comes back as the one segment it's%2Fx. -/
theorem C130_unpaired_quote : encodePathinfo [47, 105, 116, 39, 115, 47, 120] =
    some [47, 105, 116, 39, 115, 37, 50, 70, 120] := by decide

end Verif.OUri
