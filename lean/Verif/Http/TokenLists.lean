import Verif.Http.RangesProps
import Mathlib.Data.List.Sort
/-!
# Properties of `Allow`, `AcceptRanges` and `CacheControl` (C154, C155)
-/
namespace Verif.Http
open Text (isDigit decVal decStr)

/-! ### reading lists -/

/-- The words are tokens (of ASCII characters) and commas only, and the tokens are `ts`. -/
inductive TokensOf : List Word → List Bytes → Prop
  | nil : TokensOf [] []
  | comma {ws ts} (h : TokensOf ws ts) : TokensOf (.sep 44 :: ws) ts
  | token {t ws ts} (h0 : t ≠ []) (ha : ∀ b ∈ t, b < 128) (hq : t.head? ≠ some 34 ∧ t.head? ≠ some 40) (hs : ∀ b, t.head? = some b → isSeparator b = false)
      (h : TokensOf ws ts) : TokensOf (.text t :: ws) (t :: ts)

theorem tokenList_complete {ws : List Word} {ts : List Bytes} (h : TokensOf ws ts) : ∀ n, ws.length ≤ n → tokenList n ws = .ok (ts, []) := by
  induction h with
  | nil => intro n _; cases n <;> rfl
  | comma h ih =>
    intro n hn
    cases n with
    | zero => simp at hn
    | succ n =>
      have := ih n (by simpa using hn)
      simp [tokenList, wpToken, parseSep, this]
  | @token t ws ts h0 ha hq hs h ih =>
    intro n hn
    cases n with
    | zero => simp at hn
    | succ n =>
      have := ih n (by simpa using hn)
      cases t with
      | nil => exact absurd rfl h0
      | cons b t =>
        have hb := hs b rfl
        simp [tokenList, wpToken, hb, ascii_ok ha, this, bind, Except.bind, pure, Except.pure]

theorem tokenList_sound : ∀ (n : Nat) (ws : List Word) (ts : List Bytes), ws.length ≤ n → tokenList n ws = .ok (ts, []) → TokensOf ws ts := by
  intro n
  induction n with
  | zero =>
    intro ws ts hn h
    cases ws with
    | nil => cases h; exact .nil
    | cons w ws => simp at hn
  | succ n ih =>
    intro ws ts hn h
    cases ws with
    | nil => cases h; exact .nil
    | cons w ws =>
      have hn' : ws.length ≤ n := by simpa using hn
      cases w with
      | sep b =>
        simp only [tokenList, wpToken, parseSep] at h
        by_cases hb : b = 44
        · subst hb
          simp only [if_true] at h
          exact .comma (ih ws ts hn' h)
        · simp [hb] at h
      | text t =>
        cases t with
        | nil => simp [tokenList, wpToken, parseSep] at h
        | cons b t =>
          cases hb : isSeparator b with
          | true => simp [tokenList, wpToken, parseSep, hb] at h
          | false =>
            simp only [tokenList, wpToken, hb, Bool.not_false, if_true, bind, Except.bind] at h
            cases ha : ascii (b :: t) with
            | error e => simp [ha] at h
            | ok t' =>
              obtain ⟨rfl, ha'⟩ := ascii_inv ha
              simp only [ha] at h
              cases hr : tokenList n ws with
              | error e => simp [hr] at h
              | ok p =>
                obtain ⟨ts', r⟩ := p
                simp only [hr, pure, Except.pure, Except.ok.injEq, Prod.mk.injEq] at h
                obtain ⟨rfl, rfl⟩ := h
                have hne : ∀ c, isSeparator c = true → (b :: t).head? ≠ some c := by
                  intro c hc e
                  simp only [List.head?_cons, Option.some.injEq] at e
                  rw [e, hc] at hb; cases hb
                refine .token (by simp) ha' ⟨hne 34 (by decide), hne 40 (by decide)⟩ ?_ (ih ws ts' hn' hr)
                intro c hc
                simp only [List.head?_cons, Option.some.injEq] at hc
                rw [← hc]; exact hb

theorem openWords_inv {s : Bytes} {ws : List Word} {ig : Bool} (h : openWords ig s = .ok ws) : words ig s = some ws := by
  unfold openWords at h
  split at h
  · next h' => cases h; exact h'
  · cases h

theorem bytesLe_trans (a b c : Bytes) (h1 : bytesLe a b = true) (h2 : bytesLe b c = true) : bytesLe a c = true := by
  simp only [bytesLe, decide_eq_true_eq] at *
  exact List.le_trans h1 h2

theorem bytesLe_total (a b : Bytes) : (bytesLe a b || bytesLe b a) = true := by
  simp only [bytesLe, Bool.or_eq_true, decide_eq_true_eq]
  exact List.le_total a b

theorem sort_eq_iff {l m : List Bytes} : l.mergeSort bytesLe = m.mergeSort bytesLe ↔ l.Perm m := by
  constructor
  · intro h
    exact (List.mergeSort_perm l bytesLe).symm.trans (h ▸ List.mergeSort_perm m bytesLe)
  · intro h
    have hp : (l.mergeSort bytesLe).Perm (m.mergeSort bytesLe) :=
      ((List.mergeSort_perm l bytesLe).trans h).trans (List.mergeSort_perm m bytesLe).symm
    refine List.Perm.eq_of_pairwise (le := fun a b => bytesLe a b = true) ?_ (List.pairwise_mergeSort bytesLe_trans bytesLe_total l)
      (List.pairwise_mergeSort bytesLe_trans bytesLe_total m) hp
    intro a b _ _ h1 h2
    simp only [bytesLe, decide_eq_true_eq] at h1 h2
    exact List.le_antisymm h1 h2

/-! ### writing lists -/

theorem words_commaJoin : ∀ l : List Bytes, (∀ t ∈ l, AsciiToken t) →
    ∃ ws, words true (commaJoin l) = some ws ∧ TokensOf ws l := by
  intro l
  induction l with
  | nil => intro _; exact ⟨[], words_nil true, .nil⟩
  | cons t l ih =>
    intro h
    obtain ⟨h0, ht⟩ := h t (by simp)
    have hs : ∀ b, t.head? = some b → isSeparator b = false := fun b hb => (ht b (List.mem_of_head? hb)).1.2
    have hq : t.head? ≠ some 34 ∧ t.head? ≠ some 40 := by
      constructor <;> intro e
      · exact absurd (hs _ e) (by decide)
      · exact absurd (hs _ e) (by decide)
    obtain ⟨ws, hw, hts⟩ := ih fun t ht => h t (by simp [ht])
    cases l with
    | nil =>
      refine ⟨[.text t], ?_, .token h0 (fun b hb => (ht b hb).2) hq hs .nil⟩
      have := words_token true t [] h0 (fun b hb => (ht b hb).1) tokEnd_nil
      rwa [List.append_nil, words_nil] at this
    | cons t2 l =>
      refine ⟨.text t :: .sep 44 :: ws, ?_, .token h0 (fun b hb => (ht b hb).2) hq hs (.comma hts)⟩
      have e : commaJoin (t :: t2 :: l) = t ++ 44 :: 32 :: commaJoin (t2 :: l) := by
        simp [commaJoin]
      obtain ⟨b, r, hb, htok⟩ : ∃ b r, commaJoin (t2 :: l) = b :: r ∧ TokByte b := by
        obtain ⟨h20, h2t⟩ := h t2 (by simp)
        obtain ⟨b, r, rfl⟩ := List.exists_cons_of_ne_nil h20
        cases l with
        | nil => exact ⟨b, r, rfl, (h2t b (by simp)).1⟩
        | cons t3 l => exact ⟨b, _, by simp [commaJoin]; rfl, (h2t b (by simp)).1⟩
      rw [e, words_token true t _ h0 (fun b hb => (ht b hb).1) (tokEnd_cons (by decide)),
        words_sep true 44 _ (by decide) (by decide) (by decide) (by decide) (by decide), hb,
        words_sp true b r (tokByte_lws htok), ← hb, if_pos rfl, hw]
      rfl

theorem upper_asciiToken {t : Bytes} (h : AsciiToken t) : AsciiToken (upperBytes t) := by
  obtain ⟨h0, ht⟩ := h
  refine ⟨by simpa [upperBytes] using h0, ?_⟩
  intro b hb
  simp only [upperBytes, List.mem_map] at hb
  obtain ⟨a, ha, rfl⟩ := hb
  obtain ⟨h1, h2⟩ := ht a ha
  unfold upperByte
  split
  · have : ∀ x ∈ List.range 91, 65 ≤ x → TokByte x := by decide
    exact ⟨this _ (List.mem_range.mpr (by omega)) (by omega), by omega⟩
  · exact ⟨h1, h2⟩

theorem upper_upper (t : Bytes) : upperBytes (upperBytes t) = upperBytes t := by
  simp only [upperBytes, List.map_map]
  apply List.map_congr_left
  intro b _
  simp only [Function.comp, upperByte]
  split
  · rw [if_neg (by omega)]
  · rfl

/-! ### C154: Allow -/

/-- **C154**: an Allow header is read exactly when it consists of tokens and commas, and it has the tokens as its
methods, in upper case. -/
theorem C154_allow_reads (s : Bytes) (a : Allow) : Allow.fromStr s = .ok a ↔
    ∃ ws ts, words true s = some ws ∧ TokensOf ws ts ∧ a.methods = ts.map upperBytes := by
  constructor
  · intro h
    unfold Allow.fromStr at h
    cases hw : openWords true s with
    | error e => rw [hw] at h; cases h
    | ok ws =>
      simp only [hw, bind, Except.bind] at h
      cases ht : tokenList ws.length ws with
      | error e => simp [ht] at h
      | ok p =>
        obtain ⟨ts, r⟩ := p
        simp only [ht] at h
        cases r with
        | cons w r => cases h
        | nil =>
          cases h
          exact ⟨ws, ts, openWords_inv hw, tokenList_sound _ _ _ (le_refl _) ht, rfl⟩
  · rintro ⟨ws, ts, hw, ht, ha⟩
    unfold Allow.fromStr
    simp only [openWords_ok hw, bind, Except.bind, tokenList_complete ht _ (le_refl _), requireEnd, pure, Except.pure, Allow.make]
    rw [← ha]

/-- **C154**: a written list of methods is read back as it was. -/
theorem C154_allow_round_trip (args : List Bytes) (h : ∀ t ∈ args, AsciiToken t) :
    Allow.fromStr (Allow.make args).toBytes = .ok (Allow.make args) := by
  obtain ⟨ws, hw, ht⟩ := words_commaJoin (args.map upperBytes) (by
    intro t ht
    simp only [List.mem_map] at ht
    obtain ⟨u, hu, rfl⟩ := ht
    exact upper_asciiToken (h u hu))
  rw [C154_allow_reads]
  refine ⟨ws, _, hw, ht, ?_⟩
  simp only [Allow.make, List.map_map]
  apply List.map_congr_left
  intro t _
  exact (upper_upper t).symm

/-- **C154**: a method is allowed exactly when it was listed, whatever the case. -/
theorem C154_is_allowed (args : List Bytes) (m : Bytes) :
    (Allow.make args).isAllowed m = true ↔ ∃ a ∈ args, upperBytes a = upperBytes m := by
  unfold Allow.isAllowed
  rw [List.contains_iff_mem, (List.mergeSort_perm _ _).mem_iff]
  simp [Allow.make]

/-- **C154**: two lists of methods are equal exactly when one is a rearrangement of the other. -/
theorem C154_allow_eq (a b : Allow) : a.sortkey = b.sortkey ↔ a.methods.Perm b.methods := sort_eq_iff

/-! ### C154: Accept-Ranges -/

/-- The text `none`, in any case. -/
def IsNone (t : Bytes) : Prop := lowerBytes t = [110, 111, 110, 101]

theorem none_mem {l : List Bytes} : (l.map lowerBytes).contains [110, 111, 110, 101] = true ↔ ∃ t ∈ l, IsNone t := by
  rw [List.contains_iff_mem, List.mem_map]
  rfl

/-- **C154**: a written list of range units is read back as an equal value - with the same units in the same order. -/
theorem C154_ranges_round_trip {args : List Bytes} {a : AcceptRanges} (h : ∀ t ∈ args, AsciiToken t) (ha : AcceptRanges.make args = .ok a) :
    AcceptRanges.fromStr a.toBytes = .ok a := by
  have key : ∀ l : List Bytes, l ≠ [] → (∀ t ∈ l, AsciiToken t) → AcceptRanges.fromStr (commaJoin l) = AcceptRanges.make l := by
    intro l h0 hl
    obtain ⟨ws, hw, ht⟩ := words_commaJoin l hl
    unfold AcceptRanges.fromStr
    simp only [openWords_ok hw, bind, Except.bind, tokenList_complete ht _ (le_refl _), requireEnd, h0, if_false, pure, Except.pure]
  have knone : AcceptRanges.fromStr [110, 111, 110, 101] = .ok ⟨[], []⟩ := by decide +kernel
  unfold AcceptRanges.make at ha
  dsimp only at ha
  split at ha
  · split at ha
    · cases ha; exact knone
    · cases ha
  · next hn =>
    cases ha
    unfold AcceptRanges.toBytes
    dsimp only
    split
    · next h0 =>
      subst h0
      rw [knone]
      simp
    · next h0 =>
      rw [key args h0 h]
      unfold AcceptRanges.make
      dsimp only
      rw [if_neg hn]

/-- **C154**: `none` means that there is no unit, and it cannot be combined with units. -/
theorem C154_ranges_none (args : List Bytes) : 
    ((∃ t ∈ args, IsNone t) → AcceptRanges.make args = if args.length = 1 then .ok ⟨[], []⟩ else .error .badSyntax) ∧
    ((∀ t ∈ args, ¬ IsNone t) → ∃ a, AcceptRanges.make args = .ok a ∧ a.ranges = args) := by
  constructor
  · intro h
    unfold AcceptRanges.make
    dsimp only
    rw [if_pos (none_mem.mpr h), List.length_map]
  · intro h
    unfold AcceptRanges.make
    dsimp only
    rw [if_neg (by rw [none_mem]; push Not; exact h)]
    exact ⟨_, rfl, rfl⟩

/-- **C154**: the header is read exactly when it is a non-empty list of tokens without `none`, or `none` alone. -/
theorem C154_ranges_reads (s : Bytes) (a : AcceptRanges) : AcceptRanges.fromStr s = .ok a ↔
    ∃ ws ts, words true s = some ws ∧ TokensOf ws ts ∧ ts ≠ [] ∧ AcceptRanges.make ts = .ok a := by
  constructor
  · intro h
    unfold AcceptRanges.fromStr at h
    cases hw : openWords true s with
    | error e => rw [hw] at h; cases h
    | ok ws =>
      simp only [hw, bind, Except.bind] at h
      cases ht : tokenList ws.length ws with
      | error e => simp [ht] at h
      | ok p =>
        obtain ⟨ts, r⟩ := p
        simp only [ht] at h
        by_cases h0 : ts = []
        · simp [h0, throw, throwThe, MonadExceptOf.throw] at h
        · simp only [h0, if_false, pure, Except.pure] at h
          cases r with
          | cons w r => cases h
          | nil => exact ⟨ws, ts, openWords_inv hw, tokenList_sound _ _ _ (le_refl _) ht, h0, h⟩
  · rintro ⟨ws, ts, hw, ht, h0, ha⟩
    unfold AcceptRanges.fromStr
    simp only [openWords_ok hw, bind, Except.bind, tokenList_complete ht _ (le_refl _), requireEnd, h0, if_false, pure, Except.pure, ha]

/-- **C154**: two values are equal exactly when they have the same units, in any order and any case. -/
theorem C154_ranges_eq {l m : List Bytes} {a b : AcceptRanges} (ha : AcceptRanges.make l = .ok a) (hb : AcceptRanges.make m = .ok b) :
    a.sorted = b.sorted ↔ (a.ranges.map lowerBytes).Perm (b.ranges.map lowerBytes) := by
  have key : ∀ {l : List Bytes} {a : AcceptRanges}, AcceptRanges.make l = .ok a → a.sorted = (a.ranges.map lowerBytes).mergeSort bytesLe := by
    intro l a h
    unfold AcceptRanges.make at h
    dsimp only at h
    split at h
    · split at h
      · cases h; simp
      · cases h
    · cases h; rfl
  rw [key ha, key hb, sort_eq_iff]

/-- Tokens need not be separated by commas: `GET HEAD` is read like `GET, HEAD`. -/
theorem C154_no_comma : Allow.fromStr [71, 69, 84, 32, 72, 69, 65, 68] = Allow.fromStr [71, 69, 84, 44, 32, 72, 69, 65, 68] ∧
    Allow.fromStr [71, 69, 84, 32, 72, 69, 65, 68] = .ok ⟨[[71, 69, 84], [72, 69, 65, 68]]⟩ := by decide +kernel

example : AsciiToken [103, 101, 116] ∧ AsciiToken [80, 79, 83, 84] := ⟨⟨by decide, by decide⟩, ⟨by decide, by decide⟩⟩
example : Allow.fromStr [103, 101, 116, 44, 44, 32, 80, 79, 83, 84, 44] = .ok ⟨[[71, 69, 84], [80, 79, 83, 84]]⟩ := by decide +kernel
example : AcceptRanges.fromStr [66, 121, 116, 101, 115, 44, 120] = AcceptRanges.make [[66, 121, 116, 101, 115], [120]] := by
  rfl
example : AcceptRanges.fromStr [78, 111, 110, 101] = .ok ⟨[], []⟩ := by decide +kernel
example : AcceptRanges.fromStr [110, 111, 110, 101, 44, 120] = .error .badSyntax := by decide +kernel

/-! ### C155: Cache-Control -/

/-- **C155** (violation): no Cache-Control header can be read: `CacheControl.from_str` never returns. -/
theorem C155_never_read_violation (s : Bytes) : CacheControl.fromStr s = .attributeError ∨ ∃ e, CacheControl.fromStr s = .raise e := by
  unfold CacheControl.fromStr
  split
  · exact .inr ⟨_, rfl⟩
  · exact .inl rfl

/-- In particular a well formed one, `no-cache`. -/
theorem C155_no_cache_violation : CacheControl.fromStr [110, 111, 45, 99, 97, 99, 104, 101] = .attributeError := by decide +kernel

theorem ccSet_find (d : List (Bytes × CCVal)) (k : Bytes) (v : CCVal) (k' : Bytes) :
    ((ccSet d k v).find? (·.1 == k')).map (·.2) = if k' = k then some v else (d.find? (·.1 == k')).map (·.2) := by
  unfold ccSet
  split
  · next h =>
    induction d with
    | nil => simp at h
    | cons e d ih =>
      by_cases he : e.1 = k
      · by_cases hk : k' = k
        · subst hk; simp [he]
        · have hk2 : ¬ e.1 = k' := by rw [he]; exact fun e => hk e.symm
          have hk3 : ¬ k = k' := fun e => hk e.symm
          have ht : ∀ d : List (Bytes × CCVal), ((d.map fun e => if e.1 == k then (k, v) else e).find? (·.1 == k')).map (·.2) =
              (d.find? (·.1 == k')).map (·.2) := by
            intro d
            induction d with
            | nil => rfl
            | cons f d ih =>
              by_cases hf : f.1 = k
              · have : ¬ f.1 = k' := by rw [hf]; exact hk3
                simp only [List.map_cons, hf, beq_self_eq_true, if_true]
                rw [List.find?_cons_of_neg (by simpa using hk3), List.find?_cons_of_neg (by simpa using this)]
                exact ih
              · simp only [List.map_cons, beq_iff_eq, hf, if_false]
                by_cases hfk : f.1 = k'
                · rw [List.find?_cons_of_pos (by simpa using hfk), List.find?_cons_of_pos (by simpa using hfk)]
                · rw [List.find?_cons_of_neg (by simpa using hfk), List.find?_cons_of_neg (by simpa using hfk)]
                  simpa using ih
          simp only [List.map_cons, he, beq_self_eq_true, if_true, hk, if_false]
          rw [List.find?_cons_of_neg (by simpa using hk3), List.find?_cons_of_neg (by simpa using hk2)]
          exact ht d
      · have h' : d.any (·.1 == k) = true := by simpa [he] using h
        have ih := ih h'
        simp only [List.map_cons, beq_iff_eq, he, if_false]
        by_cases hek : e.1 = k'
        · rw [List.find?_cons_of_pos (by simpa using hek), List.find?_cons_of_pos (by simpa using hek)]
          rw [if_neg (by rw [← hek]; exact he)]
        · rw [List.find?_cons_of_neg (by simpa using hek), List.find?_cons_of_neg (by simpa using hek)]
          simpa using ih
  · next h =>
    rw [List.find?_append]
    by_cases hk : k' = k
    · subst hk
      have hn : d.find? (·.1 == k') = none := by
        rw [List.find?_eq_none]
        intro e he hh
        exact h (List.any_eq_true.mpr ⟨e, he, hh⟩)
      simp [hn]
    · have : ¬ k = k' := fun e => hk e.symm
      simp [hk, this]

/-- The value given last for a directive, names compared without regard to case. -/
def lastGiven (n : Bytes) : List (Bytes × CCVal) → Option CCVal
  | [] => none
  | a :: l => match lastGiven n l with
    | some v => some v
    | none => if lowerBytes a.1 = lowerBytes n then some a.2 else none

theorem cc_fold (n : Bytes) : ∀ (args : List (Bytes × CCVal)) (c : CacheControl),
    (args.foldl (fun c a => (⟨c.directives ++ [lowerBytes a.1], ccSet c.values (lowerBytes a.1) a.2⟩ : CacheControl)) c).directives =
      c.directives ++ args.map (lowerBytes ·.1) ∧
    (args.foldl (fun c a => (⟨c.directives ++ [lowerBytes a.1], ccSet c.values (lowerBytes a.1) a.2⟩ : CacheControl)) c).value (lowerBytes n) =
      match lastGiven n args with
      | some v => some v
      | none => c.value (lowerBytes n) := by
  intro args
  induction args with
  | nil => intro c; simp [lastGiven]
  | cons a l ih =>
    intro c
    rw [List.foldl_cons]
    obtain ⟨h1, h2⟩ := ih ⟨c.directives ++ [lowerBytes a.1], ccSet c.values (lowerBytes a.1) a.2⟩
    refine ⟨by rw [h1]; simp, ?_⟩
    rw [h2]
    simp only [lastGiven]
    cases lastGiven n l with
    | some v => rfl
    | none =>
      simp only [CacheControl.value]
      rw [ccSet_find]
      by_cases hk : lowerBytes a.1 = lowerBytes n
      · simp [hk]
      · have : ¬ lowerBytes n = lowerBytes a.1 := fun e => hk e.symm
        simp [hk, this]

theorem find_any {d : List (Bytes × CCVal)} {k : Bytes} : ((d.find? (·.1 == k)).map (·.2)).isSome = d.any (·.1 == k) := by
  induction d with
  | nil => rfl
  | cons e d ih =>
    by_cases h : e.1 = k
    · simp [h]
    · have hb : (e.1 == k) = false := by simpa using h
      rw [List.find?_cons_of_neg (by simpa using h), List.any_cons, hb, Bool.false_or]
      exact ih

/-- **C155**: a value constructed from directives has exactly these, in order and in lower case; looking a directive up
by name, in any case, gives the value it was given (the last one), and membership agrees with it. -/
theorem C155_lookup_partial {args : List (Bytes × CCVal)} {c : CacheControl} (h : CacheControl.make args = .ok c) :
    c.directives = args.map (fun a => lowerBytes a.1) ∧
      ∀ n, c.getName n = lastGiven n args ∧ c.has n = (lastGiven n args).isSome := by
  unfold CacheControl.make at h
  split at h
  · cases h
  cases h
  refine ⟨by rw [(cc_fold [] args ⟨[], []⟩).1]; rfl, ?_⟩
  intro n
  have h2 := (cc_fold n args ⟨[], []⟩).2
  have hv : CacheControl.value ⟨[], []⟩ (lowerBytes n) = none := rfl
  rw [hv] at h2
  have h3 : (args.foldl (fun c a => (⟨c.directives ++ [lowerBytes a.1], ccSet c.values (lowerBytes a.1) a.2⟩ : CacheControl)) ⟨[], []⟩).getName n =
      lastGiven n args := by
    unfold CacheControl.getName
    rw [h2]
    cases lastGiven n args <;> rfl
  refine ⟨h3, ?_⟩
  rw [← h3]
  unfold CacheControl.has CacheControl.getName CacheControl.value
  exact find_any.symm

/-- **C155** (constructor): only the empty list of directives is refused. -/
theorem C155_make (args : List (Bytes × CCVal)) : CacheControl.make args = .error .type ↔ args = [] := by
  unfold CacheControl.make
  split
  · next h => simp [h]
  · next h => simp [h]

/-- The words a directive is written as: its name, and after `=` a word for the value: a token or a quoted string that
decodes to the value; the values of a tuple are one quoted string, joined by commas. -/
def CCWords (d : Bytes) (v : CCVal) (ws : List Word) : Prop :=
  match v with
  | .none => ws = [.text d]
  | .tuple vs => ∃ w, ws = [.text d, .sep 61, .text w] ∧ w.head? = some 34 ∧ decodeQuotedString w = commaJoin vs
  | .one x => ∃ w, ws = [.text d, .sep 61, .text w] ∧ ((w = x ∧ ∀ b ∈ x, TokByte b) ∨ (w.head? = some 34 ∧ decodeQuotedString w = x))

/-- A value that can be written: ASCII text, not empty. -/
def CCVal.Ok : CCVal → Prop
  | .none => True
  | .tuple vs => ∀ v ∈ vs, ∀ b ∈ v, b < 128
  | .one v => v ≠ [] ∧ ∀ b ∈ v, b < 128

theorem mapM_ascii' : ∀ {vs : List Bytes}, (∀ v ∈ vs, ∀ b ∈ v, b < 128) → vs.mapM ascii = .ok vs := by
  intro vs
  induction vs with
  | nil => intro _; rfl
  | cons v vs ih =>
    intro h
    rw [List.mapM_cons, ascii_ok (h v (by simp)), ih fun v hv => h v (by simp [hv])]
    rfl

theorem commaJoin_lt {vs : List Bytes} (h : ∀ v ∈ vs, ∀ b ∈ v, b < 128) : ∀ b ∈ commaJoin vs, b < 256 := by
  induction vs with
  | nil => intro b hb; cases hb
  | cons v vs ih =>
    have ih := ih fun v hv => h v (by simp [hv])
    intro b hb
    cases vs with
    | nil => have := h v (by simp) b hb; omega
    | cons v2 vs =>
      rw [commaJoin] at hb
      · simp only [List.mem_append] at hb
        rcases hb with (hb | hb) | hb
        · have := h v (by simp) b hb; omega
        · simp only [List.mem_cons, List.not_mem_nil, or_false] at hb; omega
        · exact ih b hb
      · simp

theorem ccPiece_words {d : Bytes} {v : CCVal} (hd : AsciiToken d) (hv : v.Ok) (rest : Bytes) (hr : TokEnd rest) :
    ∃ p ws, ccPiece d v = .ok p ∧ CCWords d v ws ∧ words true (p ++ rest) = (words true rest).map (ws ++ ·) ∧
      ∃ b r, p = b :: r ∧ TokByte b := by
  have ht : ∀ b ∈ d, TokByte b := fun b hb => (hd.2 b hb).1
  obtain ⟨b0, r0, e0⟩ := List.exists_cons_of_ne_nil hd.1
  have hb0 : TokByte b0 := ht b0 (by rw [e0]; simp)
  cases v with
  | none =>
    exact ⟨d, [.text d], rfl, rfl, words_token true d rest hd.1 ht hr, b0, r0, e0, hb0⟩
  | tuple vs =>
    obtain ⟨w, hw, h1, h2⟩ := C25_one_word (commaJoin vs) (commaJoin_lt hv) true rest
    refine ⟨d ++ 61 :: quoteString (commaJoin vs) true, [.text d, .sep 61, .text w], ?_, ⟨w, rfl, h1, h2⟩, ?_, b0, _, by rw [e0]; rfl, hb0⟩
    · simp [ccPiece, mapM_ascii' hv, bind, Except.bind, pure, Except.pure]
    · rw [List.append_assoc, List.cons_append, words_token true d _ hd.1 ht (tokEnd_cons (by decide)),
        words_sep true 61 _ (by decide) (by decide) (by decide) (by decide) (by decide), hw]
      cases words true rest <;> rfl
  | one x =>
    obtain ⟨w, hw, h1⟩ := C25_noforce x (fun b hb => by have := hv.2 b hb; omega) hv.1 true rest hr
    refine ⟨d ++ 61 :: quoteString x false, [.text d, .sep 61, .text w], ?_, ⟨w, rfl, h1⟩, ?_, b0, _, by rw [e0]; rfl, hb0⟩
    · simp [ccPiece, ascii_ok hv.2, bind, Except.bind, pure, Except.pure]
    · rw [List.append_assoc, List.cons_append, words_token true d _ hd.1 ht (tokEnd_cons (by decide)),
        words_sep true 61 _ (by decide) (by decide) (by decide) (by decide) (by decide), hw]
      cases words true rest <;> rfl

/-- The words of a list of directives with commas between them. -/
inductive CCList : List (Bytes × CCVal) → List Word → Prop
  | one {d v ws} (h : CCWords d v ws) : CCList [(d, v)] ws
  | cons {d v ws e l r} (h : CCWords d v ws) (h2 : CCList (e :: l) r) : CCList ((d, v) :: e :: l) (ws ++ .sep 44 :: r)

theorem cc_pieces : ∀ (l : List (Bytes × CCVal)), l ≠ [] → (∀ e ∈ l, AsciiToken e.1 ∧ e.2.Ok) →
    ∃ ps ws, l.mapM (fun e => ccPiece e.1 e.2) = .ok ps ∧ words true (commaJoin ps) = some ws ∧ CCList l ws ∧
      ∃ b r, commaJoin ps = b :: r ∧ TokByte b := by
  intro l
  induction l with
  | nil => intro h; exact absurd rfl h
  | cons e l ih =>
    intro _ h
    obtain ⟨d, v⟩ := e
    obtain ⟨hd, hv⟩ := h (d, v) (by simp)
    cases l with
    | nil =>
      obtain ⟨p, ws, h1, h2, h3, b, r, h4, h5⟩ := ccPiece_words hd hv [] tokEnd_nil
      rw [List.append_nil, words_nil] at h3
      refine ⟨[p], ws, ?_, ?_, .one h2, b, r, h4, h5⟩
      · rw [List.mapM_cons]; simp only [h1]; rfl
      · simp only [commaJoin]; rw [h3]; simp
    | cons e2 l =>
      obtain ⟨ps, ws2, i1, i2, i3, b2, r2, i4, i5⟩ := ih (by simp) fun e he => h e (by simp [he])
      obtain ⟨p, ws, h1, h2, h3, b, r, h4, h5⟩ := ccPiece_words hd hv (44 :: 32 :: commaJoin ps) (tokEnd_cons (by decide))
      have hps : ps ≠ [] := by
        intro e0; subst e0; cases i4
      obtain ⟨q, qs, rfl⟩ := List.exists_cons_of_ne_nil hps
      have ej : commaJoin (p :: q :: qs) = p ++ 44 :: 32 :: commaJoin (q :: qs) := by simp [commaJoin]
      refine ⟨p :: q :: qs, ws ++ .sep 44 :: ws2, ?_, ?_, .cons h2 i3, b, r ++ 44 :: 32 :: commaJoin (q :: qs), ?_, h5⟩
      · rw [List.mapM_cons]; simp only [h1, i1, bind, Except.bind, pure, Except.pure]
      · rw [ej, h3, words_sep true 44 _ (by decide) (by decide) (by decide) (by decide) (by decide), i4,
          words_sp true b2 r2 (tokByte_lws i5), ← i4, if_pos rfl, i2]
        rfl
      · rw [ej, h4]; rfl

theorem lower_asciiToken {t : Bytes} (h : AsciiToken t) : AsciiToken (lowerBytes t) := by
  obtain ⟨h0, ht⟩ := h
  refine ⟨by simpa [lowerBytes] using h0, ?_⟩
  intro b hb
  simp only [lowerBytes, List.mem_map] at hb
  obtain ⟨a, ha, rfl⟩ := hb
  obtain ⟨h1, h2⟩ := ht a ha
  unfold lowerByte
  split
  · have : ∀ x ∈ List.range 123, 97 ≤ x → TokByte x := by decide +kernel
    exact ⟨this _ (List.mem_range.mpr (by omega)) (by omega), by omega⟩
  · exact ⟨h1, h2⟩

theorem lastGiven_nodup {args : List (Bytes × CCVal)} (h : (args.map fun a => lowerBytes a.1).Nodup) {a : Bytes × CCVal} (ha : a ∈ args) :
    lastGiven a.1 args = some a.2 := by
  induction args with
  | nil => cases ha
  | cons e l ih =>
    simp only [List.map_cons, List.nodup_cons] at h
    simp only [lastGiven]
    rcases List.mem_cons.mp ha with rfl | hm
    · have : ∀ l : List (Bytes × CCVal), lowerBytes a.1 ∉ l.map (fun a => lowerBytes a.1) → lastGiven a.1 l = none := by
        intro l
        induction l with
        | nil => intro _; rfl
        | cons f l ih =>
          intro hn
          simp only [List.map_cons, List.mem_cons, not_or] at hn
          simp only [lastGiven, ih hn.2]
          rw [if_neg fun e => hn.1 e.symm]
      rw [this l h.1]
      simp
    · rw [ih h.2 hm]

theorem lower_lower (t : Bytes) : lowerBytes (lowerBytes t) = lowerBytes t := by
  simp only [lowerBytes, List.map_map]
  apply List.map_congr_left
  intro b _
  simp only [Function.comp, lowerByte]
  split
  · rw [if_neg (by omega)]
  · rfl

theorem mapM_congr {α β : Type} {f g : α → Except Err β} : ∀ {l : List α}, (∀ a ∈ l, f a = g a) → l.mapM f = l.mapM g := by
  intro l
  induction l with
  | nil => intro _; rfl
  | cons a l ih =>
    intro h
    rw [List.mapM_cons, List.mapM_cons, h a (by simp), ih fun a ha => h a (by simp [ha])]

theorem mapM_map {α β γ : Type} (f : β → Except Err γ) (g : α → β) : ∀ l : List α, (l.map g).mapM f = l.mapM fun a => f (g a) := by
  intro l
  induction l with
  | nil => rfl
  | cons a l ih => rw [List.map_cons, List.mapM_cons, List.mapM_cons, ih]

/-- **C155** (writing): different directives are written so that a reader of HTTP words finds each directive with its
value, in order. -/
theorem C155_written_partial {args : List (Bytes × CCVal)} {c : CacheControl} (h : CacheControl.make args = .ok c)
    (hn : (args.map fun a => lowerBytes a.1).Nodup) (hok : ∀ a ∈ args, AsciiToken a.1 ∧ a.2.Ok) :
    ∃ s ws, c.toBytes = .ok s ∧ words true s = some ws ∧ CCList (args.map fun a => (lowerBytes a.1, a.2)) ws := by
  obtain ⟨h1, h2⟩ := C155_lookup_partial h
  have h0 : args ≠ [] := by
    intro e; subst e; cases h
  obtain ⟨ps, ws, p1, p2, p3, _⟩ := cc_pieces (args.map fun a => (lowerBytes a.1, a.2)) (by simpa using h0) (by
    intro e he
    simp only [List.mem_map] at he
    obtain ⟨a, ha, rfl⟩ := he
    exact ⟨lower_asciiToken (hok a ha).1, (hok a ha).2⟩)
  refine ⟨commaJoin ps, ws, ?_, p2, p3⟩
  rw [mapM_map] at p1
  have e : ∀ f : Bytes → Except Err Bytes, (∀ a ∈ args, f (lowerBytes a.1) = ccPiece (lowerBytes a.1) a.2) → c.directives.mapM f = .ok ps := by
    intro f hf
    rw [h1, mapM_map, ← p1]
    exact mapM_congr hf
  unfold CacheControl.toBytes
  rw [e]
  · rfl
  · intro a ha
    have hg := (h2 a.1).1
    rw [lastGiven_nodup hn ha] at hg
    unfold CacheControl.getName at hg
    rw [hg]

/-- **C155** (violation): a directive given twice is written twice, with the last value. -/
theorem C155_repeated_violation : ∃ c s, CacheControl.make [([97], .one [49]), ([65], .one [50])] = .ok c ∧ c.toBytes = .ok s ∧
    s = [97, 61, 50, 44, 32, 97, 61, 50] := ⟨_, _, rfl, by decide +kernel, rfl⟩

example : ∃ c s, CacheControl.make [([78, 111], .none), ([109], .one [54, 48]), ([112], .tuple [[97], [98]])] = .ok c ∧ c.toBytes = .ok s ∧
    s = [110, 111, 44, 32, 109, 61, 54, 48, 44, 32, 112, 61, 34, 97, 44, 32, 98, 34] := ⟨_, _, rfl, by decide +kernel, rfl⟩
example : (CCVal.one [54, 48]).Ok ∧ (CCVal.tuple [[97], [98]]).Ok := ⟨⟨by decide, by decide⟩, by
  show ∀ v ∈ ([[97], [98]] : List Bytes), ∀ b ∈ v, b < 128
  decide⟩

end Verif.Http
