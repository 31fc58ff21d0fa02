import Verif.OData.Lit
import Verif.Iso.StringProps
/-!
# OData URI literals: reading back what was written (C61)
-/
namespace Verif.OData

open Verif.Text
open Verif.Iso (Date Time TimePoint mkDate mkTime mkTimePoint YMD Clock Zone timePoint)

/-- The text stops here as far as a literal is concerned: the end, a space or tab, a closing bracket, a comma or a
slash.  These are the characters that follow a literal in formatted expressions and key predicates. -/
def Stop (r : Str) : Prop := r = [] ∨ ∃ c r', r = c :: r' ∧ (c = 9 ∨ c = 32 ∨ c = 41 ∨ c = 44 ∨ c = 47)

/-! ### Scanning -/

theorem takeWhile_stop {p : Nat → Bool} {w r : Str} (hw : ∀ c ∈ w, p c = true) (hr : ∀ c, r.head? = some c → p c = false) :
    (w ++ r).takeWhile p = w ∧ (w ++ r).dropWhile p = r := by
  induction w with
  | nil =>
    cases r with
    | nil => simp
    | cons c r => simp [hr c rfl]
  | cons a w ih =>
    have := ih (fun c hc => hw c (List.mem_cons_of_mem _ hc))
    have ha := hw a (List.mem_cons_self ..)
    simp [ha, this.1, this.2]

theorem isAlpha_cont (ids : Ids) {c : Nat} (h : Uri.isAlpha c = true) : ids.start c = true ∧ ids.cont c = true := by
  have hlt : c < 128 := by simp [Uri.isAlpha, Uri.isUpper, Uri.isLower] at h; omega
  have := ids.start_ascii c hlt
  exact ⟨by rw [this, h], ids.start_cont c (by rw [this, h])⟩

/-- The text does not continue an identifier. -/
def Break (ids : Ids) (r : Str) : Prop := ∀ c, r.head? = some c → ids.cont c = false ∧ c ≠ 46

theorem break_code (ids : Ids) {r : Str} (c : Nat) (h : r.head? = some c) (hlt : c < 128)
    (h2 : (Uri.isAlnum c || c == 95) = false) (h3 : c ≠ 46) : Break ids r := by
  intro d hd
  rw [h] at hd; cases hd
  exact ⟨by rw [ids.cont_ascii c hlt, h2], h3⟩

theorem Stop.brk (ids : Ids) {r : Str} (h : Stop r) : Break ids r := by
  rcases h with rfl | ⟨c, r', rfl, h⟩
  · intro c hc; cases hc
  · apply break_code ids c rfl
    · omega
    · rcases h with rfl | rfl | rfl | rfl | rfl <;> rfl
    · omega

theorem identLoop_append (ids : Ids) (r : Str) (hr : Break ids r) : ∀ (fuel : Nat) (s n q : Str),
    identLoop ids fuel s = some (n, q) → q = [] → ∀ fuel', fuel ≤ fuel' → identLoop ids fuel' (s ++ r) = some (n, r) := by
  intro fuel
  induction fuel with
  | zero => intro s n q h; simp [identLoop] at h
  | succ fuel ih =>
    intro s n q h hq fuel' hf
    obtain ⟨fuel', rfl⟩ : ∃ k, fuel' = k + 1 := ⟨fuel' - 1, by omega⟩
    cases s with
    | nil => simp [identLoop] at h
    | cons c t =>
      unfold identLoop at h
      by_cases hs : ids.start c = true
      · rw [if_pos hs] at h
        dsimp only at h
        have hd : t = t.takeWhile ids.cont ++ t.dropWhile ids.cont := List.takeWhile_append_dropWhile.symm
        cases hw : t.dropWhile ids.cont with
        | nil =>
          rw [hw] at h
          simp only [Option.some.injEq, Prod.mk.injEq] at h
          rw [hw, List.append_nil] at hd
          have hall : ∀ x ∈ t, ids.cont x = true := by
            rw [hd]; intro x hx
            exact List.all_eq_true.1 List.all_takeWhile x hx
          have key := takeWhile_stop hall (fun c hc => (hr c hc).1)
          rw [List.cons_append]
          unfold identLoop
          rw [if_pos hs]
          dsimp only
          rw [key.1, key.2]
          cases r with
          | nil => rw [← h.1, ← hd]
          | cons x r' =>
            dsimp only
            rw [if_neg (hr x rfl).2, ← h.1, ← hd]
        | cons x r'' =>
          rw [hw] at h hd
          dsimp only at h
          have hx : ids.cont x = false := by
            have := List.head?_dropWhile_not ids.cont t
            rw [hw] at this
            simpa using this
          have hall : ∀ y ∈ t.takeWhile ids.cont, ids.cont y = true := fun y hy => List.all_eq_true.1 List.all_takeWhile y hy
          have key := takeWhile_stop (r := x :: (r'' ++ r)) hall (fun c hc => by cases hc; exact hx)
          have e : t ++ r = t.takeWhile ids.cont ++ x :: (r'' ++ r) := by
            rw [List.append_cons, ← List.append_assoc, ← List.append_cons, ← hd]
          rw [List.cons_append]
          unfold identLoop
          rw [if_pos hs]
          dsimp only
          rw [e, key.1, key.2]
          dsimp only
          by_cases h46 : x = 46
          · rw [if_pos h46] at h ⊢
            cases hi : identLoop ids fuel r'' with
            | none => rw [hi] at h; cases h
            | some p =>
              obtain ⟨m, q'⟩ := p
              rw [hi] at h
              simp only [Option.map_some, Option.some.injEq, Prod.mk.injEq] at h
              rw [ih r'' m q' hi (by rw [h.2, hq]) fuel' (by omega)]
              rw [← h.1]; rfl
          · rw [if_neg h46] at h
            simp only [Option.some.injEq, Prod.mk.injEq] at h
            rw [← h.2] at hq; cases hq
      · rw [if_neg hs] at h; cases h

/-- A complete identifier. -/
def IsName (ids : Ids) (n : Str) : Prop := parseIdent ids n = some (n, [])

theorem parseIdent_append (ids : Ids) {n r : Str} (hn : IsName ids n) (hr : Break ids r) :
    parseIdent ids (n ++ r) = some (n, r) :=
  identLoop_append ids r hr _ _ _ _ hn rfl _ (by simp)

theorem isName_word (ids : Ids) (w : Str) (hne : w ≠ []) (h : ∀ c ∈ w, Uri.isAlpha c = true) : IsName ids w := by
  cases w with
  | nil => exact absurd rfl hne
  | cons c t =>
    have hc := isAlpha_cont ids (h c (List.mem_cons_self ..))
    have ht : ∀ x ∈ t, ids.cont x = true := fun x hx => (isAlpha_cont ids (h x (List.mem_cons_of_mem _ hx))).2
    have key := takeWhile_stop (r := []) ht (fun c hc => by cases hc)
    rw [List.append_nil] at key
    unfold IsName parseIdent identLoop
    rw [if_pos hc.1]
    dsimp only
    rw [key.1, key.2]

/-- Text that starts with a character that cannot start an identifier is not an identifier. -/
theorem parseIdent_none (ids : Ids) (c : Nat) (r : Str) (hlt : c < 128) (h : Uri.isAlpha c = false) :
    parseIdent ids (c :: r) = none := by
  unfold parseIdent identLoop
  rw [if_neg]
  rw [ids.start_ascii c hlt, h]; simp

theorem parseLit_keyword (ids : Ids) {w r : Str} (hw : IsName ids w) (hr : Break ids r) :
    parseLit ids (w ++ r) = keyword w r := by
  unfold parseLit
  rw [parseIdent_append ids hw hr]

theorem word_null (ids : Ids) : IsName ids (chars "null") := isName_word ids _ (by decide) (by decide)
theorem word_true (ids : Ids) : IsName ids (chars "true") := isName_word ids _ (by decide) (by decide)
theorem word_false (ids : Ids) : IsName ids (chars "false") := isName_word ids _ (by decide) (by decide)

theorem parseLit_null (ids : Ids) {r : Str} (hr : Break ids r) : parseLit ids (chars "null" ++ r) = .ok .null r := by
  rw [parseLit_keyword ids (word_null ids) hr]; rfl

theorem parseLit_true (ids : Ids) {r : Str} (hr : Break ids r) : parseLit ids (chars "true" ++ r) = .ok (.bool true) r := by
  rw [parseLit_keyword ids (word_true ids) hr]; rfl

theorem parseLit_false (ids : Ids) {r : Str} (hr : Break ids r) : parseLit ids (chars "false" ++ r) = .ok (.bool false) r := by
  rw [parseLit_keyword ids (word_false ids) hr]; rfl

theorem quote_break (ids : Ids) (r : Str) : Break ids (39 :: r) := break_code ids 39 rfl (by decide) (by decide) (by decide)

/-! ### Numbers -/

/-- What may follow an integer without suffix. -/
def NumEnd (r : Str) : Prop := ∀ c, r.head? = some c → isDigit c = false ∧ c ≠ 46 ∧ c ≠ 101 ∧ c ≠ 69

theorem Stop.numEnd {r : Str} (h : Stop r) : NumEnd r := by
  rcases h with rfl | ⟨c, r', rfl, h⟩
  · intro c hc; cases hc
  · intro d hd; cases hd
    rcases h with rfl | rfl | rfl | rfl | rfl <;> decide

theorem numEnd_cons (c : Nat) (r : Str) (h : isDigit c = false ∧ c ≠ 46 ∧ c ≠ 101 ∧ c ≠ 69) : NumEnd (c :: r) := by
  intro d hd; cases hd; exact h

theorem lower_digit {c : Nat} (h : isDigit c = true) (r : Str) : lower (c :: r) = c :: lower r := by
  simp only [isDigit, Bool.and_eq_true, decide_eq_true_eq] at h
  simp only [lower, List.map_cons, List.cons.injEq, and_true]
  rw [if_neg (by omega)]

theorem insensitive_digit {c : Nat} (h : isDigit c = true) (r : Str) :
    insensitive (chars "inf") (c :: r) = none ∧ insensitive (chars "nan") (c :: r) = none := by
  have hb : 48 ≤ c ∧ c ≤ 57 := by simpa [isDigit] using h
  constructor
  · unfold insensitive
    rw [if_neg]
    rw [show (chars "inf").length = 2 + 1 from rfl, List.take_succ_cons, lower_digit h]
    intro he
    have : c = 105 := by
      have := congrArg List.head? he
      simpa [chars] using this
    omega
  · unfold insensitive
    rw [if_neg]
    rw [show (chars "nan").length = 2 + 1 from rfl, List.take_succ_cons, lower_digit h]
    intro he
    have : c = 110 := by
      have := congrArg List.head? he
      simpa [chars] using this
    omega

theorem exponent_end (sign l : Str) (rd : Option Str) {r : Str} (h : NumEnd r) :
    exponent sign l rd r = .ok ⟨sign, l, rd, [], none⟩ r := by
  cases r with
  | nil => rfl
  | cons c r =>
    have := h c rfl
    unfold exponent
    dsimp only
    rw [if_neg (by omega)]

theorem numericBody_int (sign ds r : Str) (hne : ds ≠ []) (hd : ∀ c ∈ ds, isDigit c = true) (hr : NumEnd r) :
    numericBody sign (ds ++ r) = .ok ⟨sign, ds, none, [], none⟩ r := by
  have key := takeWhile_stop hd (fun c hc => (hr c hc).1)
  cases ds with
  | nil => exact absurd rfl hne
  | cons c t =>
    have hi := insensitive_digit (hd c (List.mem_cons_self ..)) (t ++ r)
    unfold numericBody
    rw [List.cons_append, hi.1, hi.2]
    dsimp only
    rw [← List.cons_append, key.1, key.2]
    have : ∀ q, NumEnd q → (match q with
      | 46 :: r =>
        let rd := r.takeWhile isDigit
        if (c :: t) = [] ∧ rd = [] then R.none else exponent sign (c :: t) (some rd) (r.dropWhile isDigit)
      | r => if (c :: t) = [] then R.none else exponent sign (c :: t) none r) =
        .ok ⟨sign, c :: t, none, [], none⟩ q := by
      intro q hq
      split
      · exact absurd rfl (hq 46 rfl).2.1
      · rw [if_neg (by simp), exponent_end _ _ _ hq]
    exact this r hr

theorem numericBody_frac (sign l rd r : Str) (hne : l ≠ []) (hl : ∀ c ∈ l, isDigit c = true)
    (hrd : ∀ c ∈ rd, isDigit c = true) (hr : NumEnd r) :
    numericBody sign (l ++ 46 :: rd ++ r) = .ok ⟨sign, l, some rd, [], none⟩ r := by
  have k1 := takeWhile_stop (r := 46 :: rd ++ r) hl (fun c hc => by cases hc; rfl)
  have k2 := takeWhile_stop hrd (fun c hc => (hr c hc).1)
  rw [List.append_assoc]
  cases l with
  | nil => exact absurd rfl hne
  | cons c t =>
    have hi := insensitive_digit (hl c (List.mem_cons_self ..)) (t ++ (46 :: rd ++ r))
    unfold numericBody
    rw [List.cons_append, hi.1, hi.2]
    dsimp only
    rw [← List.cons_append, k1.1, k1.2]
    simp only [List.cons_append]
    rw [k2.1, k2.2]
    rw [if_neg (by simp), exponent_end _ _ _ hr]

theorem numeric_neg (s : Str) : numeric (45 :: s) = numericBody [45] s := rfl

theorem numeric_pos {c : Nat} (h : isDigit c = true) (s : Str) : numeric (c :: s) = numericBody [] (c :: s) := by
  have hb : c ≠ 45 := by rintro rfl; simp [isDigit] at h
  unfold numeric
  split
  · rename_i r heq; cases heq; exact absurd rfl hb
  · rfl

/-- The sign and digits of an integer. -/
theorem numeric_int (n : Int) {r : Str} (hr : NumEnd r) :
    numeric (intStr n ++ r) = .ok ⟨if n < 0 then [45] else [], decStr n.natAbs, none, [], none⟩ r := by
  unfold intStr
  by_cases h : n < 0
  · rw [if_pos h, if_pos h, List.cons_append, numeric_neg, numericBody_int _ _ _ (decStr_ne_nil _) (decStr_isDigit _) hr]
  · rw [if_neg h, if_neg h]
    cases hd : decStr n.natAbs with
    | nil => exact absurd hd (decStr_ne_nil _)
    | cons c t =>
      have hall := decStr_isDigit n.natAbs
      rw [hd] at hall
      rw [List.cons_append, numeric_pos (hall c (List.mem_cons_self ..)), ← List.cons_append,
        numericBody_int _ _ _ (by simp) hall hr]

theorem parseLit_number (ids : Ids) (c : Nat) (r : Str) (h : c = 45 ∨ c = 46 ∨ isDigit c = true) :
    parseLit ids (c :: r) = (numeric (c :: r)).bind suffix := by
  have hlt : c < 128 := by simp [isDigit] at h; omega
  have hal : Uri.isAlpha c = false := by
    simp [isDigit] at h
    simp only [Uri.isAlpha, Uri.isUpper, Uri.isLower, Bool.or_eq_false_iff, Bool.and_eq_false_iff, decide_eq_false_iff_not]
    omega
  unfold parseLit
  rw [parseIdent_none ids c r hlt hal]
  dsimp only
  rw [if_neg (by simp [isDigit] at h; omega), if_pos h]

theorem intStr_head (n : Int) : ∃ c t, intStr n = c :: t ∧ (c = 45 ∨ c = 46 ∨ isDigit c = true) := by
  unfold intStr
  by_cases h : n < 0
  · rw [if_pos h]; exact ⟨_, _, rfl, .inl rfl⟩
  · rw [if_neg h]
    cases hd : decStr n.natAbs with
    | nil => exact absurd hd (decStr_ne_nil _)
    | cons c t =>
      have hall := decStr_isDigit n.natAbs
      rw [hd] at hall
      exact ⟨c, t, rfl, .inr (.inr (hall c (List.mem_cons_self ..)))⟩

theorem parseLit_intStr (ids : Ids) (n : Int) {r : Str} (hr : NumEnd r) :
    parseLit ids (intStr n ++ r) = suffix ⟨if n < 0 then [45] else [], decStr n.natAbs, none, [], none⟩ r := by
  obtain ⟨c, t, e, h⟩ := intStr_head n
  have := numeric_int n hr
  rw [e] at this ⊢
  rw [List.cons_append] at this ⊢
  rw [parseLit_number ids c _ h, this]; rfl

theorem numeric_value (n : Int) : Numeric.int ⟨if n < 0 then [45] else [], decStr n.natAbs, none, [], none⟩ = n := by
  unfold Numeric.int
  dsimp only
  rw [decVal_decStr]
  by_cases h : n < 0
  · rw [if_pos h, if_pos rfl]; omega
  · rw [if_neg h, if_neg (by simp)]; omega

theorem decStr_not_alpha (k : Nat) (sign : Str) (rd : Option Str) : Numeric.alpha ⟨sign, decStr k, rd, [], none⟩ = false := by
  have h1 := decStr_isDigit k
  unfold Numeric.alpha
  dsimp only
  rw [Bool.or_eq_false_iff]
  constructor <;>
  · rw [beq_eq_false_iff_ne]
    intro he
    rw [he] at h1
    exact absurd h1 (by decide)

theorem numeric_isInt (n : Int) (most : Nat) (h : n.natAbs < 10 ^ most) (hm : 0 < most) :
    Numeric.isInt ⟨if n < 0 then [45] else [], decStr n.natAbs, none, [], none⟩ most = true := by
  unfold Numeric.isInt
  rw [decStr_not_alpha]
  have := decStr_length_le h hm
  simp [decStr_ne_nil, this]

theorem parseLit_i32 (ids : Ids) (n : Int) (h : -2147483648 ≤ n ∧ n ≤ 2147483647) {r : Str} (hr : Stop r) :
    parseLit ids (intStr n ++ r) = .ok (.i32 n) r := by
  rw [parseLit_intStr ids n hr.numEnd]
  have hset : setInt32 ⟨if n < 0 then [45] else [], decStr n.natAbs, none, [], none⟩ = some (.i32 n) := by
    unfold setInt32
    rw [numeric_isInt n 10 (by omega) (by omega), if_pos rfl, numeric_value, if_neg (by omega)]
  rcases hr with rfl | ⟨c, r', rfl, h⟩
  · unfold suffix; dsimp only; rw [hset]; rfl
  · unfold suffix
    dsimp only
    rw [hset, if_neg (by omega), if_neg (by omega), if_neg (by omega), if_neg (by omega)]; rfl

theorem parseLit_i64 (ids : Ids) (n : Int) (h : -9223372036854775808 ≤ n ∧ n ≤ 9223372036854775807) (r : Str) :
    parseLit ids (intStr n ++ 76 :: r) = .ok (.i64 n) r := by
  rw [parseLit_intStr ids n (numEnd_cons 76 r (by decide))]
  unfold suffix
  dsimp only
  rw [if_neg (by omega), if_neg (by omega), if_neg (by omega), if_pos (by omega)]
  unfold setInt64
  rw [numeric_isInt n 19 (by omega) (by omega), if_pos rfl, numeric_value, if_neg (by omega)]; rfl

/-- Decimals. -/
theorem numeric_dec (neg : Bool) (coef scale : Nat) {r : Str} (hend : NumEnd r) :
    numeric (decText neg coef scale ++ r) =
      .ok ⟨if neg then [45] else [], decStr (coef / 10 ^ scale),
        if scale = 0 then none else some (decPad scale (coef % 10 ^ scale)), [], none⟩ r := by
    have hbody : ∀ sg, numericBody sg ((if scale = 0 then decStr coef
        else decStr (coef / 10 ^ scale) ++ 46 :: decPad scale (coef % 10 ^ scale)) ++ r) =
        .ok ⟨sg, decStr (coef / 10 ^ scale),
        if scale = 0 then none else some (decPad scale (coef % 10 ^ scale)), [], none⟩ r := by
      intro sg
      by_cases h0 : scale = 0
      · subst h0
        simp only [if_true, Nat.pow_zero, Nat.div_one]
        exact numericBody_int _ _ _ (decStr_ne_nil _) (decStr_isDigit _) hend
      · rw [if_neg h0, if_neg h0]
        exact numericBody_frac _ _ _ _ (decStr_ne_nil _) (decStr_isDigit _) (decPad_isDigit _ _) hend
    unfold decText
    cases neg with
    | true =>
      simp only [if_true, List.cons_append, List.nil_append]
      rw [numeric_neg, hbody]
    | false =>
      simp only [Bool.false_eq_true, if_false, List.nil_append]
      rw [← hbody []]
      have : ∃ c t, ((if scale = 0 then decStr coef
        else decStr (coef / 10 ^ scale) ++ 46 :: decPad scale (coef % 10 ^ scale)) ++ r) = c :: t ∧ isDigit c = true := by
        have hh : ∀ k q, ∃ c t, decStr k ++ q = c :: t ∧ isDigit c = true := by
          intro k q
          cases hd : decStr k with
          | nil => exact absurd hd (decStr_ne_nil _)
          | cons c t =>
            have hall := decStr_isDigit k
            rw [hd] at hall
            exact ⟨c, t ++ q, rfl, hall c (List.mem_cons_self ..)⟩
        split
        · exact hh _ _
        · rw [List.append_assoc]; exact hh _ _
      obtain ⟨c, t, e, hc⟩ := this
      rw [e, numeric_pos hc]

theorem setDecimal_dec (neg : Bool) (coef scale : Nat) (hs : scale ≤ 29) (hl' : (decStr (coef / 10 ^ scale)).length ≤ 29) :
    setDecimal ⟨if neg then [45] else [], decStr (coef / 10 ^ scale),
        if scale = 0 then none else some (decPad scale (coef % 10 ^ scale)), [], none⟩ = some (.dec neg coef scale) := by
  have hpos : 0 < 10 ^ scale := Nat.pow_pos (by omega)
  show setDecimal ⟨if neg then [45] else [], decStr (coef / 10 ^ scale),
        if scale = 0 then none else some (decPad scale (coef % 10 ^ scale)), [], none⟩ = some (.dec neg coef scale)
  · unfold setDecimal
    rw [decStr_not_alpha]
    by_cases h0 : scale = 0
    · subst h0
      simp only [Nat.pow_zero, Nat.div_one] at hl' ⊢
      have hneg : ((if neg = true then [45] else ([] : Str)) == [45]) = neg := by cases neg <;> rfl
      simp [decVal_decStr, hneg, hl']
    · have hlen := decPad_length (Nat.mod_lt coef hpos) (by omega : 0 < scale)
      have hne : decPad scale (coef % 10 ^ scale) ≠ [] := by
        intro he; rw [he] at hlen; simp at hlen; omega
      have hneg : ((if neg = true then [45] else ([] : Str)) == [45]) = neg := by cases neg <;> rfl
      have hval : decVal (decStr (coef / 10 ^ scale) ++ decPad scale (coef % 10 ^ scale)) = coef := by
        have happ : ∀ (b : Str) (x : Nat), b.foldl (fun acc d => 10 * acc + (d - 48)) x = x * 10 ^ b.length + decVal b := by
          intro b
          induction b with
          | nil => intro x; simp [decVal]
          | cons d b ih =>
            intro x
            have e2 : decVal (d :: b) = b.foldl (fun acc d => 10 * acc + (d - 48)) (10 * 0 + (d - 48)) := rfl
            rw [List.foldl_cons, ih, e2, ih, List.length_cons, Nat.pow_succ]
            rw [Nat.add_mul, Nat.mul_zero, Nat.zero_add]
            have : 10 * x * 10 ^ b.length = x * (10 ^ b.length * 10) := by
              rw [Nat.mul_comm 10 x, Nat.mul_assoc, Nat.mul_comm 10]
            omega
        rw [decVal_append, happ, decVal_decStr, decVal_decPad, hlen]
        have := Nat.div_add_mod coef (10 ^ scale)
        rw [Nat.mul_comm] at this
        exact this
      simp only [if_neg h0, Option.getD_some, hlen, hval, hneg]
      have hb : (some (decPad scale (coef % 10 ^ scale)) == some ([] : Str)) = false := by
        rw [beq_eq_false_iff_ne]; simpa using hne
      rw [hb]
      simp [hl', hs]

theorem parseLit_dec (ids : Ids) (neg : Bool) (coef scale : Nat) (hs : scale ≤ 29)
    (hl : (decStr coef).length ≤ 29 + scale) (r : Str) (hl' : (decStr (coef / 10 ^ scale)).length ≤ 29) :
    parseLit ids (decText neg coef scale ++ 77 :: r) = .ok (.dec neg coef scale) r := by
  have hend := numEnd_cons 77 r (by decide)
  have hnum := numeric_dec neg coef scale hend
  have hhead : ∃ c t, decText neg coef scale ++ 77 :: r = c :: t ∧ (c = 45 ∨ c = 46 ∨ isDigit c = true) := by
    cases hx : decText neg coef scale ++ 77 :: r with
    | nil => simp at hx
    | cons c t =>
      refine ⟨c, t, rfl, ?_⟩
      unfold decText at hx
      cases neg with
      | true => simp at hx; exact .inl hx.1.symm
      | false =>
        have hh : ∀ k q, decStr k ++ q = c :: t → isDigit c = true := by
          intro k q hq
          have hall := decStr_isDigit k
          cases hd : decStr k with
          | nil => exact absurd hd (decStr_ne_nil _)
          | cons c' t' =>
            rw [hd] at hall hq
            simp only [List.cons_append, List.cons.injEq] at hq
            rw [← hq.1]; exact hall c' (List.mem_cons_self ..)
        simp only [Bool.false_eq_true, if_false, List.nil_append] at hx
        refine .inr (.inr ?_)
        split at hx
        · exact hh _ _ hx
        · rw [List.append_assoc] at hx; exact hh _ _ hx
  obtain ⟨c, t, e, hc⟩ := hhead
  rw [e, parseLit_number ids c t hc, ← e, hnum]
  simp only [R.bind]
  unfold suffix
  dsimp only
  rw [if_neg (by omega), if_neg (by omega), if_pos (by omega)]
  rw [setDecimal_dec neg coef scale hs hl']; rfl

/-! ### Strings -/

theorem stringBody_quote (s : Str) (r : Str) (hr : r.head? ≠ some 39) :
    stringBody (quoteText s ++ 39 :: r) = .ok s r := by
  induction s with
  | nil =>
    cases r with
    | nil => rfl
    | cons d r =>
      have : d ≠ 39 := by intro h; exact hr (by rw [h]; rfl)
      simp [quoteText, stringBody, this]
  | cons c s ih =>
    by_cases h : c = 39
    · subst h
      have : quoteText (39 :: s) = 39 :: 39 :: quoteText s := rfl
      rw [this]
      simp only [List.cons_append]
      rw [stringBody, if_pos rfl, if_pos rfl, ih]; rfl
    · have e : quoteText (c :: s) = c :: quoteText s := by
        simp [quoteText, h]
      rw [e, List.cons_append]
      cases hq : quoteText s ++ 39 :: r with
      | nil => simp at hq
      | cons d t =>
        rw [hq] at ih
        rw [stringBody, if_neg h, ih]; rfl

theorem parseLit_str (ids : Ids) (s : Str) {r : Str} (hr : r.head? ≠ some 39) :
    parseLit ids (39 :: quoteText s ++ [39] ++ r) = .ok (.str s) r := by
  unfold parseLit
  rw [List.cons_append, List.cons_append, parseIdent_none ids 39 _ (by decide) (by decide)]
  dsimp only
  rw [if_pos rfl, List.append_assoc, List.singleton_append, stringBody_quote s r hr]; rfl

theorem Stop.noQuote {r : Str} (h : Stop r) : r.head? ≠ some 39 := by
  rcases h with rfl | ⟨c, r', rfl, h⟩
  · simp
  · simp; omega

/-! ### Binary and guid literals -/

theorem isHex_hexDigit {n : Nat} (h : n < 16) : Uri.isHex (Uri.hexDigit n) = true := by
  have : ∀ n : Fin 16, Uri.isHex (Uri.hexDigit n.1) = true := by decide
  exact this ⟨n, h⟩

theorem hexVal_hexDigit {n : Nat} (h : n < 16) : Uri.hexVal (Uri.hexDigit n) = n := by
  have : ∀ n : Fin 16, Uri.hexVal (Uri.hexDigit n.1) = n.1 := by decide
  exact this ⟨n, h⟩

theorem isHex_hexLow {n : Nat} (h : n < 16) : Uri.isHex (hexLow n) = true := by
  have : ∀ n : Fin 16, Uri.isHex (hexLow n.1) = true := by decide
  exact this ⟨n, h⟩

theorem hexVal_hexLow {n : Nat} (h : n < 16) : Uri.hexVal (hexLow n) = n := by
  have : ∀ n : Fin 16, Uri.hexVal (hexLow n.1) = n.1 := by decide
  exact this ⟨n, h⟩

theorem hexBytes_hex2 (b : List Nat) (h : ∀ x ∈ b, x < 256) : hexBytes (b.flatMap hex2) = b := by
  induction b with
  | nil => rfl
  | cons x b ih =>
    have hx := h x (List.mem_cons_self ..)
    show hexBytes (Uri.hexDigit (x / 16) :: Uri.hexDigit (x % 16) :: b.flatMap hex2) = _
    rw [hexBytes, ih (fun y hy => h y (List.mem_cons_of_mem _ hy)), hexVal_hexDigit (by omega), hexVal_hexDigit (by omega)]
    congr 1; omega

theorem hex2_isHex (b : List Nat) (h : ∀ x ∈ b, x < 256) : ∀ c ∈ b.flatMap hex2, Uri.isHex c = true := by
  intro c hc
  rw [List.mem_flatMap] at hc
  obtain ⟨x, hx, hc⟩ := hc
  have := h x hx
  simp only [hex2, List.mem_cons, List.not_mem_nil, or_false] at hc
  rcases hc with rfl | rfl
  · exact isHex_hexDigit (by omega)
  · exact isHex_hexDigit (by omega)

theorem hex2_length (b : List Nat) : (b.flatMap hex2).length = 2 * b.length := by
  induction b with
  | nil => rfl
  | cons x b ih => simp [hex2, List.flatMap_cons] at *; omega

theorem binary_hex (b : List Nat) (hb : b ≠ []) (h : ∀ x ∈ b, x < 256) (r : Str) :
    binary (b.flatMap hex2 ++ 39 :: r) = .ok (.bin b) (39 :: r) := by
  have key := takeWhile_stop (r := 39 :: r) (hex2_isHex b h) (fun c hc => by cases hc; rfl)
  have hlen := hex2_length b
  have hpos : 0 < b.length := List.length_pos_iff.2 hb
  unfold binary hexDigits
  rw [key.1]
  dsimp only
  rw [if_neg (by omega)]
  dsimp only
  rw [if_neg (by omega), hexBytes_hex2 b h, List.drop_left]

theorem keyword_X (q : Str) : keyword [88] q = quoted binary q := by
  unfold keyword
  simp +decide only [if_false, if_true, true_or]

theorem keyword_guid (q : Str) : keyword (chars "guid") q = guidLit q := by
  unfold keyword
  simp +decide only [if_false, if_true]

theorem expect_self (c : Nat) (r : Str) : expect c (c :: r) = .ok () r := by
  simp [expect]

theorem parseLit_bin (ids : Ids) (b : List Nat) (hb : b ≠ []) (h : ∀ x ∈ b, x < 256) (r : Str) :
    parseLit ids (wrap [88] (b.flatMap hex2) ++ r) = .ok (.bin b) r := by
  have e : wrap [88] (b.flatMap hex2) ++ r = [88] ++ (39 :: (b.flatMap hex2 ++ 39 :: r)) := by
    simp [wrap, List.append_assoc]
  rw [e, parseLit_keyword ids (isName_word ids _ (by decide) (by decide)) (quote_break ids _)]
  rw [keyword_X]
  unfold quoted
  rw [expect_self]
  simp only [R.bind]
  rw [binary_hex b hb h r]
  simp only [R.require, R.bind]
  rw [expect_self]

theorem parseLit_bin_empty (ids : Ids) (r : Str) :
    parseLit ids (wrap [88] ([] : Str) ++ r) = .ok .binText r := by
  have e : wrap [88] ([] : Str) ++ r = [88] ++ (39 :: 39 :: r) := rfl
  rw [e, parseLit_keyword ids (isName_word ids _ (by decide) (by decide)) (quote_break ids _)]
  rw [keyword_X]
  rfl

theorem hexPad_length (w n : Nat) : (hexPad w n).length = w := by
  induction w generalizing n with
  | zero => rfl
  | succ w ih => simp [hexPad, ih]

theorem hexPad_isHex (w n : Nat) : ∀ c ∈ hexPad w n, Uri.isHex c = true := by
  induction w generalizing n with
  | zero => simp [hexPad]
  | succ w ih =>
    intro c hc
    rw [hexPad, List.mem_append, List.mem_singleton] at hc
    rcases hc with hc | rfl
    · exact ih _ c hc
    · exact isHex_hexLow (by omega)

theorem hexNum_hexPad (w n : Nat) : hexNum (hexPad w n) = n % 16 ^ w := by
  induction w generalizing n with
  | zero => simp [hexPad, hexNum, Nat.mod_one]
  | succ w ih =>
    have : hexNum (hexPad w (n / 16) ++ [hexLow (n % 16)]) = 16 * hexNum (hexPad w (n / 16)) + n % 16 := by
      unfold hexNum
      rw [List.foldl_append, List.foldl_cons, List.foldl_nil, hexVal_hexLow (by omega)]
    rw [hexPad, this, ih, Nat.pow_succ]
    have h1 := Nat.mod_mul_left_div_self n 16 (16 ^ w)
    rw [Nat.mul_comm (16 ^ w) 16, Nat.mod_mul]
    omega

theorem hexDigits_exact (n : Nat) (w r : Str) (hl : w.length = n) (hw : ∀ c ∈ w, Uri.isHex c = true) :
    hexDigits n (some n) (w ++ r) = .ok w r := by
  have h1 : ((w ++ r).takeWhile Uri.isHex).take n = w := by
    have : (w ++ r).takeWhile Uri.isHex = w ++ r.takeWhile Uri.isHex := by
      rw [List.takeWhile_append_of_pos hw]
    rw [this, ← hl, List.take_left']
    rfl
  unfold hexDigits
  dsimp only
  rw [h1, if_neg (by omega), List.drop_left]

theorem mem_take_drop {w : Str} {i j c : Nat} (h : c ∈ (w.drop i).take j) : c ∈ w :=
  List.mem_of_mem_drop (List.mem_of_mem_take h)

theorem parseLit_guid (ids : Ids) (n : Nat) (h : n < 2 ^ 128) (r : Str) :
    parseLit ids (wrap (chars "guid") (guidText n) ++ r) = .ok (.guid n) r := by
  have hx := hexPad_isHex 32 n
  have hl := hexPad_length 32 n
  have hv := hexNum_hexPad 32 n
  generalize hexPad 32 n = w at hx hl hv
  have e : wrap (chars "guid") (guidText n) ++ r = chars "guid" ++ (39 :: (guidText n ++ 39 :: r)) := by
    simp [wrap, List.append_assoc]
  rw [e, parseLit_keyword ids (isName_word ids _ (by decide) (by decide)) (quote_break ids _)]
  rw [keyword_guid]
  have hx := hexPad_isHex 32 n
  have hl := hexPad_length 32 n
  have hv := hexNum_hexPad 32 n
  unfold guidText
  generalize hexPad 32 n = w at hx hl hv
  dsimp only
  unfold guidLit
  rw [expect_self]
  simp only [R.bind, List.append_assoc, List.cons_append]
  rw [hexDigits_exact 8 (w.take 8) _ (by rw [List.length_take]; omega) (fun c hc => hx c (List.mem_of_mem_take hc))]
  simp only [R.require, R.bind]
  rw [expect_self]
  simp only [R.bind]
  rw [hexDigits_exact 4 ((w.drop 8).take 4) _ (by rw [List.length_take, List.length_drop]; omega) (fun c hc => hx c (mem_take_drop hc))]
  simp only [R.require, R.bind]
  rw [expect_self]
  simp only [R.bind]
  rw [hexDigits_exact 4 ((w.drop 12).take 4) _ (by rw [List.length_take, List.length_drop]; omega) (fun c hc => hx c (mem_take_drop hc))]
  simp only [R.require, R.bind]
  rw [expect_self]
  simp only [R.bind]
  rw [hexDigits_exact 4 ((w.drop 16).take 4) _ (by rw [List.length_take, List.length_drop]; omega) (fun c hc => hx c (mem_take_drop hc))]
  simp only [R.require, R.bind]
  rw [hexDigits_exact 12 (w.drop 20) _ (by rw [List.length_drop]; omega) (fun c hc => hx c (List.mem_of_mem_drop hc))]
  simp only [R.bind]
  rw [expect_self]
  simp only [R.bind]
  have hcat : w.take 8 ++ (w.drop 8).take 4 ++ (w.drop 12).take 4 ++ (w.drop 16).take 4 ++ w.drop 20 = w := by
    have e1 : w.drop 16 = (w.drop 16).take 4 ++ w.drop 20 := by
      have := (List.take_append_drop 4 (w.drop 16)).symm
      rwa [List.drop_drop] at this
    have e2 : w.drop 12 = (w.drop 12).take 4 ++ w.drop 16 := by
      have := (List.take_append_drop 4 (w.drop 12)).symm
      rwa [List.drop_drop] at this
    have e3 : w.drop 8 = (w.drop 8).take 4 ++ w.drop 12 := by
      have := (List.take_append_drop 4 (w.drop 8)).symm
      rwa [List.drop_drop] at this
    calc _ = w.take 8 ++ ((w.drop 8).take 4 ++ ((w.drop 12).take 4 ++ ((w.drop 16).take 4 ++ w.drop 20))) := by
            simp only [List.append_assoc]
      _ = w := by rw [← e1, ← e2, ← e3, List.take_append_drop]
  simp only [List.append_assoc] at hcat
  rw [hcat, hv, Nat.mod_eq_of_lt (by rw [show (16:Nat) ^ 32 = 2 ^ 128 from by decide]; exact h)]

end Verif.OData
