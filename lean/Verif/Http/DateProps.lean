import Verif.Http.Reparse
import Verif.Http.FullDate
import Verif.Iso.StringProps
import Verif.Iso.Checks
/-!
# HTTP dates (C27, C45)
-/
namespace Verif.Http
open Text (isDigit decVal decPad decStr)
open Iso (YMD Clock Zone TimePoint timePoint instant maxDay fmtInt mkDate mkTime mkTimePoint)

/-! ### Specification: how a date is written in HTTP (RFC 2616 3.3.1) -/

/-- The name of the day of the week of a date. -/
def dayName (names : List Bytes) (d : YMD) : Bytes := names.getD (d.weekday - 1).toNat []
/-- The name of the month. -/
def monthName (d : YMD) : Bytes := monthNames.getD (d.m - 1).toNat []
/-- A number with at least `w` digits. -/
def num (w : Nat) (n : Int) : Bytes := decPad w n.toNat
/-- hh:mm:ss -/
def clockText (c : Clock) : Bytes := num 2 c.h ++ [58] ++ num 2 c.m ++ [58] ++ num 2 c.s
/-- ` GMT` -/
def gmt : Bytes := [32, 71, 77, 84]

/-- `Sun, 06 Nov 1994 08:49:37 GMT` -/
def rfc1123 (d : YMD) (c : Clock) : Bytes :=
  dayName wkdayNames d ++ [44, 32] ++ num 2 d.d ++ [32] ++ monthName d ++ [32] ++ num 4 d.y ++ [32] ++ clockText c ++ gmt
/-- `Sunday, 06-Nov-94 08:49:37 GMT` -/
def rfc850 (d : YMD) (c : Clock) : Bytes :=
  dayName weekdayNames d ++ [44, 32] ++ num 2 d.d ++ [45] ++ monthName d ++ [45] ++ num 2 (d.y % 100) ++ [32] ++
    clockText c ++ gmt
/-- `Sun Nov  6 08:49:37 1994`; a day of one digit is preceded by two spaces. -/
def asctime (d : YMD) (c : Clock) : Bytes :=
  dayName wkdayNames d ++ [32] ++ monthName d ++ (if d.d < 10 then [32, 32] else [32]) ++ num 1 d.d ++ [32] ++
    clockText c ++ [32] ++ num 4 d.y

example : rfc1123 ⟨1994, 11, 6⟩ ⟨8, 49, 37⟩ = "Sun, 06 Nov 1994 08:49:37 GMT".toList.map Char.toNat := by decide +kernel
example : rfc850 ⟨1994, 11, 6⟩ ⟨8, 49, 37⟩ = "Sunday, 06-Nov-94 08:49:37 GMT".toList.map Char.toNat := by decide +kernel
example : asctime ⟨1994, 11, 6⟩ ⟨8, 49, 37⟩ = "Sun Nov  6 08:49:37 1994".toList.map Char.toNat := by decide +kernel

/-! ### numbers and names as words -/

theorem num_ne_nil (w : Nat) (n : Int) : num w n ≠ [] := by
  simp [num, decPad, Text.decStr_ne_nil]
theorem num_digit {w : Nat} {n : Int} : ∀ b ∈ num w n, isDigit b = true := Text.decPad_isDigit w _
theorem num_tok {w : Nat} {n : Int} : ∀ b ∈ num w n, TokByte b := fun b hb => (digit_tok (num_digit b hb)).1
theorem num_digits (w : Nat) (n : Int) : isDigits (num w n) = true := by
  simp only [isDigits, Bool.and_eq_true, List.all_eq_true]
  exact ⟨by simpa using num_ne_nil w n, num_digit⟩
theorem num_val (w : Nat) (n : Int) : decVal (num w n) = n.toNat := Text.decVal_decPad w _

theorem requireInteger_num (w : Nat) (n : Int) (ws : List Word) :
    requireInteger (.text (num w n) :: ws) = .ok (n.toNat, ws) := by
  simp [requireInteger, wpInteger, num_digits, num_val]

theorem isDigitToken_num (w : Nat) (n : Int) (ws : List Word) : isDigitToken (.text (num w n) :: ws) = true := by
  simp [isDigitToken, num_digits, isToken_tok (num_ne_nil w n) num_tok]

theorem weekday_range (d : YMD) : 1 ≤ d.weekday ∧ d.weekday ≤ 7 := by unfold YMD.weekday; omega

theorem dayName_props (d : YMD) : (dayName wkdayNames d ≠ [] ∧ (∀ b ∈ dayName wkdayNames d, TokByte b) ∧
      wkdayIndex (lowerBytes (dayName wkdayNames d)) = some (d.weekday - 1).toNat) ∧
    (dayName weekdayNames d ≠ [] ∧ (∀ b ∈ dayName weekdayNames d, TokByte b) ∧
      wkdayIndex (lowerBytes (dayName weekdayNames d)) = some (d.weekday - 1).toNat) := by
  have h := weekday_range d
  have : (d.weekday - 1).toNat < 7 := by omega
  unfold dayName
  generalize (d.weekday - 1).toNat = n at this
  revert n
  decide +kernel

theorem monthName_props (d : YMD) (h : d.Valid) : monthName d ≠ [] ∧ (∀ b ∈ monthName d, TokByte b ∧ b ≠ 45) ∧
      monthIndex (lowerBytes (monthName d)) = some (d.m - 1).toNat ∧ isDigits (monthName d) = false := by
  have : (d.m - 1).toNat < 12 := by have := h.2.2.1; have := h.2.2.2.1; omega
  unfold monthName
  generalize (d.m - 1).toNat = n at this
  revert n
  decide +kernel

theorem getWeekDay_dow {d : YMD} (h : d.Valid) : ∃ a b c e, d.date.getWeekDay = some (a, b, c, e, some d.weekday) := by
  obtain ⟨y, w, _, _, _, _, _, e, _⟩ := Iso.C10_week_round_trip d h
  exact ⟨_, _, _, _, e⟩

/-- `mkFullDate` succeeds exactly for existing dates and times with the right day of the week. -/
theorem mkFullDate_eq (century year month day hour minute second dow : Nat) :
    mkFullDate century year month day hour minute second dow =
      if (year ≤ 99 ∧ YMD.Valid ⟨100 * century + year, month + 1, day⟩) ∧ Clock.Valid ⟨hour, minute, second⟩ then
        if YMD.weekday ⟨100 * century + year, month + 1, day⟩ = (dow : Int) + 1 then
          .ok (timePoint ⟨100 * century + year, month + 1, day⟩ ⟨hour, minute, second⟩ .utc)
        else .error .badSyntax
      else .error .dateTime := by
  have e1 := (Iso.C37_calendar century year ((month : Int) + 1) day).2.2.2
  have e2 := Iso.mkTime_named ⟨hour, minute, second⟩ .utc trivial (some 0) none none rfl
  unfold mkFullDate
  rw [e1, e2]
  by_cases h1 : (year : Int) ≤ 99 ∧ YMD.Valid ⟨100 * century + year, month + 1, day⟩
  · have h1' : year ≤ 99 ∧ YMD.Valid ⟨100 * century + year, month + 1, day⟩ := ⟨by omega, h1.2⟩
    rw [if_pos ⟨by omega, h1⟩]
    by_cases h2 : Clock.Valid ⟨hour, minute, second⟩
    · have e3 := Iso.mkTimePoint_complete _ h1.2 ⟨hour, minute, second⟩ .utc trivial
      rw [if_pos h2] at e3
      obtain ⟨a, b, c, e, e4⟩ := getWeekDay_dow h1.2
      rw [if_pos h2, if_pos ⟨h1', h2⟩]
      simp only [e3]
      have e5 : (timePoint ⟨100 * century + year, month + 1, day⟩ ⟨hour, minute, second⟩ .utc).date.getWeekDay =
        some (a, b, c, e, some (YMD.weekday ⟨100 * century + year, month + 1, day⟩)) := e4
      rw [e5]
      simp only [ne_eq, Option.some.injEq, ite_not]
    · rw [if_neg h2, if_neg (fun h => h2 h.2)]
  · have h1' : ¬ (year ≤ 99 ∧ YMD.Valid ⟨100 * century + year, month + 1, day⟩) := fun h => h1 ⟨by omega, h.2⟩
    rw [if_neg (fun h => h1 h.2)]
    show Except.error Err.dateTime = _
    rw [if_neg (fun h => h1' h.1)]

theorem bind_ok_eq {α β : Type} {x : Except Err α} {f : α → Except Err β} {a : α} (h : x = .ok a) : (x >>= f) = f a := by
  subst h; rfl

/-- The clock as words. -/
def clockWords (c : Clock) : List Word := [.text (num 2 c.h), .sep 58, .text (num 2 c.m), .sep 58, .text (num 2 c.s)]

theorem fullDateTime_clock (c : Clock) (ws : List Word) : fullDateTime (clockWords c ++ ws) =
    .ok ((c.h.toNat, c.m.toNat, c.s.toNat), parseSp ws) := by
  simp only [fullDateTime, clockWords, List.cons_append, List.nil_append, parseSp_text, requireInteger_num, bind, Except.bind,
    requireSep_eq, pure, Except.pure]

theorem tok58 : ¬ TokByte 58 := by decide
theorem tok32 : ¬ TokByte 32 := by decide
theorem tok44 : ¬ TokByte 44 := by decide

theorem words_num {ig : Bool} {w : Nat} {n : Int} {r : Bytes} (hr : TokEnd r) :
    words ig (num w n ++ r) = (words ig r).map (.text (num w n) :: ·) := words_token ig _ _ (num_ne_nil w n) num_tok hr

theorem words_clock (c : Clock) (r : Bytes) (hr : TokEnd r) :
    words true (clockText c ++ r) = (words true r).map (clockWords c ++ ·) := by
  have e : clockText c ++ r = num 2 c.h ++ 58 :: (num 2 c.m ++ 58 :: (num 2 c.s ++ r)) := by simp [clockText]
  rw [e, words_num (tokEnd_cons tok58), words_sep true 58 _ (by decide) (by decide) (by decide) (by decide) (by decide),
    words_num (tokEnd_cons tok58), words_sep true 58 _ (by decide) (by decide) (by decide) (by decide) (by decide),
    words_num hr]
  cases words true r <;> simp [clockWords]


theorem toNat_cast {n : Int} (h : 0 ≤ n) : (n.toNat : Int) = n := Int.toNat_of_nonneg h

/-- The object is built from the numbers that were read. -/
theorem mkFullDate_point (d : YMD) (hd : d.Valid) (c : Clock) (hc : c.Valid) (ce y : Nat) (hy : y ≤ 99)
    (he : (100 * ce + y : Int) = d.y) :
    mkFullDate ce y (d.m - 1).toNat d.d.toNat c.h.toNat c.m.toNat c.s.toNat (d.weekday - 1).toNat =
      .ok (timePoint d c .utc) := by
  have hw := weekday_range d
  have hd' := hd
  simp only [YMD.Valid] at hd'
  have hc' := hc
  simp only [Clock.Valid] at hc'
  have e1 : (⟨100 * ce + y, ((d.m - 1).toNat : Int) + 1, d.d.toNat⟩ : YMD) = d := by
    rw [he, toNat_cast (by omega), toNat_cast (by omega)]
    cases d; simp
  have e2 : (⟨c.h.toNat, c.m.toNat, c.s.toNat⟩ : Clock) = c := by
    rw [toNat_cast (by omega), toNat_cast (by omega), toNat_cast (by omega)]
  rw [mkFullDate_eq, e1, e2, if_pos ⟨⟨hy, hd⟩, hc⟩, if_pos (by omega)]

theorem gmt_zone (p : DateParts) (y : Nat) (h : p.year = some y) : fullDateYear p [.text [71, 77, 84]] =
    .ok ((p.century.getD (if y < 90 then 20 else 19), y), []) := by
  obtain ⟨c, y', m, d⟩ := p
  simp only at h
  subst h
  have e : requireToken [.text [71, 77, 84]] = .ok ([71, 77, 84], []) := by decide
  cases c <;> simp [fullDateYear, e, bind, Except.bind, upperBytes, upperByte]

theorem words_gmt : words true [32, 71, 77, 84] = some [.text [71, 77, 84]] := by decide +kernel

theorem lws_num {w : Nat} {n : Int} {b : Nat} {r : Bytes} (h : num w n = b :: r) : ¬ LwsStart b := by
  apply tokByte_lws
  exact num_tok (w := w) (n := n) b (by rw [h]; simp)

/-- A space before a token is skipped. -/
theorem words_sp_tok (t r : Bytes) (h0 : t ≠ []) (ht : ∀ b ∈ t, TokByte b) : words true (32 :: (t ++ r)) = words true (t ++ r) := by
  cases t with
  | nil => exact absurd rfl h0
  | cons b t => 
    rw [List.cons_append, words_sp true b _ (tokByte_lws (ht b (by simp)))]
    rfl

theorem words_sp_sp (t r : Bytes) (h0 : t ≠ []) (ht : ∀ b ∈ t, TokByte b) (hr : TokEnd r) :
    words true (32 :: 32 :: (t ++ r)) = (words true r).map (.text t :: ·) := by
  have hp := parseToken_append t r h0 ht hr
  cases t with
  | nil => exact absurd rfl h0
  | cons b t =>
    have hb := tokByte_lws (ht b (by simp))
    have hsp : spanSp (b :: (t ++ r)) = ([], b :: (t ++ r)) := by
      rw [spanSp, if_neg]
      intro hh; apply hb; simp only [LwsStart]; omega
    have hl : parseLws (32 :: 32 :: b :: (t ++ r)) = some ([32, 32], b :: (t ++ r)) := by
      rw [parseLws_sp (.inl rfl), spanSp, hsp]; simp
    have hn := parseLws_none (r := t ++ r) hb
    rw [List.cons_append] at hp ⊢
    rw [words_emit (a := [.text (b :: t)]) (r := r)]
    · rfl
    · simp only [wordStep, List.length_cons, skipLws, hl, hn]
      have hs : isSeparator b = false := (ht b (by simp)).2
      simp [hs, hp]

theorem getD_of_lt {l : List Bytes} {n : Nat} (h : n < l.length) : l[n]? = some (l.getD n []) := by
  simp [List.getD, List.getElem?_eq_getElem h]

/-- The text written for a date and time in UTC is the RFC 1123 form. -/
theorem toBytes_rfc1123 (tp : TimePoint) (d : YMD) (hd : d.Valid) (c : Clock) (hc : c.Valid)
    (h : tp.shiftZone (some 0) none none = some (timePoint d c .utc)) : fullDateToBytes tp = some (rfc1123 d c) := by
  obtain ⟨a, b, e, f, hw⟩ := getWeekDay_dow hd
  have hwr := weekday_range d
  have hd' := hd
  simp only [YMD.Valid] at hd'
  have hc' := hc
  simp only [Clock.Valid] at hc'
  have fm : ∀ w (n : Int), 0 ≤ n → fmtInt w n = num w n := by
    intro w n hn
    simp only [fmtInt, num]
    rw [if_neg (by omega)]
    congr 1; omega
  have g1 : wkdayNames[(d.weekday - 1).toNat]? = some (dayName wkdayNames d) :=
    getD_of_lt (show (d.weekday - 1).toNat < 7 by omega)
  have g2 : monthNames[(d.m - 1).toNat]? = some (monthName d) := getD_of_lt (show (d.m - 1).toNat < 12 by omega)
  have e1 : (timePoint d c .utc).date = d.date := rfl
  have e2 : (timePoint d c .utc).time = ⟨c.h, some c.m, some c.s, some 0, some 0⟩ := rfl
  have hy : d.y / 100 * 100 + d.y % 100 = d.y := by omega
  unfold fullDateToBytes
  simp only [h, Option.bind_eq_bind, Option.bind_some, e1, e2, YMD.date]
  have hw' := hw
  simp only [YMD.date] at hw'
  simp only [hw', Option.bind_some, g1, g2, hy]
  rw [fm _ _ (by omega), fm _ _ (by omega), fm _ _ (by omega), fm _ _ (by omega), fm _ _ (by omega)]
  simp [rfc1123, clockText, gmt]

theorem parseSep_comma (ws : List Word) : parseSep 44 (.sep 44 :: ws) = (true, ws) := rfl
theorem parseSep_text (c : Nat) (t : Bytes) (ws : List Word) : parseSep c (.text t :: ws) = (false, .text t :: ws) := rfl

theorem fullDate_ok {s : Bytes} {t : Bytes} {ws ws1 ws2 ws3 : List Word} {dow ce y h m sec : Nat} {p : DateParts}
    {tp : TimePoint} (hw : words true s = some (.text t :: ws)) (h0 : t ≠ []) (ht : ∀ b ∈ t, TokByte b)
    (hd : wkdayIndex (lowerBytes t) = some dow) (hp : fullDateParts (parseSp ws) = .ok (p, ws1))
    (h2 : fullDateTime ws1 = .ok ((h, m, sec), ws2)) (h3 : fullDateYear p ws2 = .ok ((ce, y), ws3))
    (h4 : mkFullDate ce y p.month p.day h m sec dow = .ok tp) (h5 : parseSp ws3 = []) :
    fullDateFromStr s = .ok tp := by
  simp only [fullDateFromStr, requireFullDate, openWords_ok hw, bind, Except.bind, parseSp_text,
    requireToken_tok h0 ht, hd, orBad, hp, h2, h3, h4, h5, pure, Except.pure, requireEnd]

/-- Every date and time in UTC, written in the RFC 1123 form, is read back. -/
theorem read_rfc1123 (d : YMD) (hd : d.Valid) (c : Clock) (hc : c.Valid) :
    fullDateFromStr (rfc1123 d c) = .ok (timePoint d c .utc) := by
  obtain ⟨⟨a1, a2, a3⟩, _⟩ := dayName_props d
  obtain ⟨b1, b2, b3, b4⟩ := monthName_props d hd
  have b2' : ∀ b ∈ monthName d, TokByte b := fun b hb => (b2 b hb).1
  have hd' := hd
  simp only [YMD.Valid] at hd'
  have hw : words true (rfc1123 d c) = some (.text (dayName wkdayNames d) :: .sep 44 :: .text (num 2 d.d) ::
      .text (monthName d) :: .text (num 4 d.y) :: (clockWords c ++ [.text [71, 77, 84]])) := by
    have e : rfc1123 d c = dayName wkdayNames d ++ 44 :: 32 :: (num 2 d.d ++ 32 :: (monthName d ++ 32 :: (num 4 d.y ++
      32 :: (num 2 c.h ++ ([58] ++ num 2 c.m ++ [58] ++ num 2 c.s ++ gmt))))) := by simp [rfc1123, clockText]
    have e' : num 2 c.h ++ ([58] ++ num 2 c.m ++ [58] ++ num 2 c.s ++ gmt) = clockText c ++ gmt := by simp [clockText]
    rw [e, words_token true _ _ a1 a2 (tokEnd_cons tok44),
      words_sep true 44 _ (by decide) (by decide) (by decide) (by decide) (by decide),
      words_sp_tok _ _ (num_ne_nil _ _) num_tok, words_num (tokEnd_cons tok32), words_sp_tok _ _ b1 b2',
      words_token true _ _ b1 b2' (tokEnd_cons tok32), words_sp_tok _ _ (num_ne_nil _ _) num_tok,
      words_num (tokEnd_cons tok32), words_sp_tok _ _ (num_ne_nil _ _) num_tok, e',
      words_clock c gmt (tokEnd_cons tok32), gmt, words_gmt]
    rfl
  refine fullDate_ok (p := ⟨some (d.y.toNat / 100), some (d.y.toNat % 100), (d.m - 1).toNat, d.d.toNat⟩) hw a1 a2 a3
    (ws1 := clockWords c ++ [.text [71, 77, 84]]) ?_ (fullDateTime_clock c _) (gmt_zone _ _ rfl)
    (mkFullDate_point d hd c hc _ _ (by omega) ?_) rfl
  · rw [parseSp_sep (by decide)]
    simp only [fullDateParts, parseSep_comma, parseSp_text, isDigitToken_num, if_true, rfc1123Date, requireInteger_num, bind,
      Except.bind, requireToken_tok b1 b2', b3, orBad, pure, Except.pure]
  · simp only [Option.getD_some]; omega

/-- Every date and time in UTC of the years 1990 to 2089, written in the RFC 850 form, is read back. -/
theorem read_rfc850 (d : YMD) (hd : d.Valid) (hy : 1990 ≤ d.y ∧ d.y ≤ 2089) (c : Clock) (hc : c.Valid) :
    fullDateFromStr (rfc850 d c) = .ok (timePoint d c .utc) := by
  obtain ⟨_, a1, a2, a3⟩ := dayName_props d
  obtain ⟨b1, b2, b3, b4⟩ := monthName_props d hd
  have hd' := hd
  simp only [YMD.Valid] at hd'
  have hn : ∀ w (n : Int), 45 ∉ num w n := by
    intro w n hm
    have := num_digit 45 hm
    revert this; decide
  have t1 : ∀ b ∈ num 2 d.d ++ 45 :: (monthName d ++ 45 :: num 2 (d.y % 100)), TokByte b := by
    intro b hb
    simp only [List.mem_append, List.mem_cons] at hb
    rcases hb with hb | rfl | hb | rfl | hb
    · exact num_tok b hb
    · decide
    · exact (b2 b hb).1
    · decide
    · exact num_tok b hb
  have t0 : num 2 d.d ++ 45 :: (monthName d ++ 45 :: num 2 (d.y % 100)) ≠ [] := by simp
  have hs : splitByte 45 (num 2 d.d ++ 45 :: (monthName d ++ 45 :: num 2 (d.y % 100))) =
      [num 2 d.d, monthName d, num 2 (d.y % 100)] := by
    rw [splitByte_append _ _ _ (hn _ _), splitByte_append _ _ _ (fun h => (b2 45 h).2 rfl), splitByte_none _ _ (hn _ _)]
  have hnd : isDigits (num 2 d.d ++ 45 :: (monthName d ++ 45 :: num 2 (d.y % 100))) = false := by
    simp [isDigits, isDigit]
  have hw : words true (rfc850 d c) = some (.text (dayName weekdayNames d) :: .sep 44 ::
      .text (num 2 d.d ++ 45 :: (monthName d ++ 45 :: num 2 (d.y % 100))) :: (clockWords c ++ [.text [71, 77, 84]])) := by
    have e : rfc850 d c = dayName weekdayNames d ++ 44 :: 32 :: ((num 2 d.d ++ 45 :: (monthName d ++ 45 :: num 2 (d.y % 100))) ++ 
      32 :: (num 2 c.h ++ ([58] ++ num 2 c.m ++ [58] ++ num 2 c.s ++ gmt))) := by simp [rfc850, clockText]
    have e' : num 2 c.h ++ ([58] ++ num 2 c.m ++ [58] ++ num 2 c.s ++ gmt) = clockText c ++ gmt := by simp [clockText]
    rw [e, words_token true _ _ a1 a2 (tokEnd_cons tok44),
      words_sep true 44 _ (by decide) (by decide) (by decide) (by decide) (by decide),
      words_sp_tok _ _ t0 t1, words_token true _ _ t0 t1 (tokEnd_cons tok32), words_sp_tok _ _ (num_ne_nil _ _) num_tok, e',
      words_clock c gmt (tokEnd_cons tok32), gmt, words_gmt]
    rfl
  refine fullDate_ok (p := ⟨none, some (d.y % 100).toNat, (d.m - 1).toNat, d.d.toNat⟩) hw a1 a2 a3
    (ws1 := clockWords c ++ [.text [71, 77, 84]]) ?_ (fullDateTime_clock c _) (gmt_zone _ _ rfl)
    (mkFullDate_point d hd c hc _ _ (by omega) ?_) rfl
  · rw [parseSp_sep (by decide)]
    have hid : ∀ ws, isDigitToken (.text (num 2 d.d ++ 45 :: (monthName d ++ 45 :: num 2 (d.y % 100))) :: ws) = false := by
      intro ws
      simp only [isDigitToken, hnd, Bool.and_false]
    simp only [fullDateParts, parseSep_comma, parseSp_text, hid, Bool.false_eq_true, if_false, rfc850Date, bind,
      Except.bind, requireToken_tok t0 t1, hs, rfc850Parts, num_digits, Bool.and_self, if_true, b3, orBad, pure, Except.pure,
      num_val]
  · simp only [Option.getD_none]; split <;> omega

/-- Every date and time in UTC, written in the format of C's `asctime`, is read back. -/
theorem read_asctime (d : YMD) (hd : d.Valid) (c : Clock) (hc : c.Valid) :
    fullDateFromStr (asctime d c) = .ok (timePoint d c .utc) := by
  obtain ⟨⟨a1, a2, a3⟩, _⟩ := dayName_props d
  obtain ⟨b1, b2, b3, b4⟩ := monthName_props d hd
  have b2' : ∀ b ∈ monthName d, TokByte b := fun b hb => (b2 b hb).1
  have hd' := hd
  simp only [YMD.Valid] at hd'
  have hw : words true (asctime d c) = some (.text (dayName wkdayNames d) ::
      .text (monthName d) :: .text (num 1 d.d) :: (clockWords c ++ [.text (num 4 d.y)])) := by
    have e : asctime d c = dayName wkdayNames d ++ 32 :: (monthName d ++ ((if d.d < 10 then [32, 32] else [32]) ++ (num 1 d.d ++
      32 :: (num 2 c.h ++ ([58] ++ num 2 c.m ++ [58] ++ num 2 c.s ++ 32 :: num 4 d.y))))) := by simp [asctime, clockText]
    have e' : num 2 c.h ++ ([58] ++ num 2 c.m ++ [58] ++ num 2 c.s ++ 32 :: num 4 d.y) = clockText c ++ 32 :: (num 4 d.y ++ []) := by
      simp [clockText]
    have key : words true ((if d.d < 10 then [32, 32] else [32]) ++ (num 1 d.d ++ 32 :: (num 2 c.h ++ ([58] ++ num 2 c.m ++ [58] ++ num 2 c.s ++ 32 :: num 4 d.y)))) =
       some (.text (num 1 d.d) :: (clockWords c ++ [.text (num 4 d.y)])) := by
      have k0 : words true (32 :: (num 2 c.h ++ ([58] ++ num 2 c.m ++ [58] ++ num 2 c.s ++ 32 :: num 4 d.y))) =
          some (clockWords c ++ [.text (num 4 d.y)]) := by
        rw [words_sp_tok _ _ (num_ne_nil _ _) num_tok, e', words_clock c _ (tokEnd_cons tok32),
          words_sp_tok _ _ (num_ne_nil _ _) num_tok, words_num tokEnd_nil, words_nil]
        rfl
      split
      · show words true (32 :: 32 :: (num 1 d.d ++ _)) = _
        rw [words_sp_sp _ _ (num_ne_nil _ _) num_tok (tokEnd_cons tok32), k0]; rfl
      · show words true (32 :: (num 1 d.d ++ _)) = _
        rw [words_sp_tok _ _ (num_ne_nil _ _) num_tok, words_num (tokEnd_cons tok32), k0]; rfl
    have hte : TokEnd ((if d.d < 10 then [32, 32] else [32]) ++ (num 1 d.d ++ 32 :: (num 2 c.h ++ ([58] ++ num 2 c.m ++ [58] ++ num 2 c.s ++ 32 :: num 4 d.y)))) := by
      split <;> exact tokEnd_cons tok32
    rw [e, words_token true _ _ a1 a2 (tokEnd_cons tok32), words_sp_tok _ _ b1 b2', words_token true _ _ b1 b2' hte, key]
    rfl
  refine fullDate_ok (p := ⟨none, none, (d.m - 1).toNat, d.d.toNat⟩) hw a1 a2 a3
    (ws1 := clockWords c ++ [.text (num 4 d.y)]) (ws3 := []) (ce := d.y.toNat / 100) (y := d.y.toNat % 100) ?_
    (fullDateTime_clock c _) ?_ (mkFullDate_point d hd c hc _ _ (by omega) (by omega)) rfl
  · simp only [fullDateParts, parseSp_text, parseSep_text, asctimeDate, requireInteger_num, bind,
      Except.bind, requireToken_tok b1 b2', b3, orBad, pure, Except.pure]
  · simp only [fullDateYear, parseSp_text, requireInteger_num, bind, Except.bind, pure, Except.pure]

/-- **C27**: every complete time point with a zone (whose UTC time lies in the calendar) is written in the RFC 1123
form of the same instant in GMT, and reading this text returns that instant. -/
theorem C27_round_trip (d : YMD) (hd : d.Valid) (c : Clock) (hc : c.Valid) (z : Zone) (hz : z.Valid)
    (hu : z ≠ .unspecified) (hlo : 86400 ≤ instant d c.onMinute z) (hhi : instant d c.onMinute z < 86400 * (maxDay + 1)) :
    ∃ (d' : YMD) (c' : Clock), d'.Valid ∧ c'.Valid ∧ instant d' c' .utc = instant d c z ∧
      fullDateToBytes (timePoint d c z) = some (rfc1123 d' c') ∧
      fullDateFromStr (rfc1123 d' c') = .ok (timePoint d' c' .utc) := by
  obtain ⟨d', c', h1, h2, _, _, h5, h6⟩ := Iso.C14_to_utc d hd c hc z hz hu hlo hhi
  exact ⟨d', c', h1, h2, h5, toBytes_rfc1123 _ d' h1 c' h2 h6, read_rfc1123 d' h1 c' h2⟩

/-- **C27**: each of the three formats of RFC 2616 is read as the date and time it shows. -/
theorem C27_formats (d : YMD) (hd : d.Valid) (c : Clock) (hc : c.Valid) :
    fullDateFromStr (rfc1123 d c) = .ok (timePoint d c .utc) ∧
    fullDateFromStr (asctime d c) = .ok (timePoint d c .utc) ∧
    (1990 ≤ d.y ∧ d.y ≤ 2089 → fullDateFromStr (rfc850 d c) = .ok (timePoint d c .utc)) :=
  ⟨read_rfc1123 d hd c hc, read_asctime d hd c hc, fun hy => read_rfc850 d hd hy c hc⟩

theorem wkdayIndex_some {t : Bytes} {i : Nat} (h : wkdayIndex t = some i) :
    t = lowerBytes (wkdayNames.getD i []) ∨ t = lowerBytes (weekdayNames.getD i []) := by
  have key : ∀ (l : List Bytes) (i : Nat), (l.map lowerBytes).findIdx? (· == t) = some i → t = lowerBytes (l.getD i []) := by
    intro l i hi
    rw [List.findIdx?_eq_some_iff_getElem] at hi
    obtain ⟨h1, h2, _⟩ := hi
    simp only [List.length_map] at h1
    rw [beq_iff_eq, List.getElem_map] at h2
    rw [← h2, List.getD, List.getElem?_eq_getElem h1]
    rfl
  unfold wkdayIndex at h
  split at h
  · next h' => cases h; exact .inr (key _ _ h')
  · exact .inl (key _ _ h)

/-- **C27**: whatever text is read, the result is an existing date and time in UTC, and the day of the week named by
the first word of the text is the right one. -/
theorem C27_sound (s : Bytes) (tp : TimePoint) (h : fullDateFromStr s = .ok tp) :
    ∃ (d : YMD) (c : Clock) (ws0 : List Word) (t : Bytes) (ws : List Word), d.Valid ∧ c.Valid ∧ tp = timePoint d c .utc ∧
      words true s = some ws0 ∧ parseSp ws0 = .text t :: ws ∧
      (lowerBytes t = lowerBytes (dayName wkdayNames d) ∨ lowerBytes t = lowerBytes (dayName weekdayNames d)) := by
  unfold fullDateFromStr at h
  obtain ⟨ws0, h0, h⟩ := bind_ok h
  obtain ⟨⟨tp', ws9⟩, h1, h⟩ := bind_ok h
  obtain ⟨_, _, h⟩ := bind_ok h
  cases h
  unfold requireFullDate at h1
  obtain ⟨⟨t, ws⟩, h2, h1⟩ := bind_ok h1
  obtain ⟨dow, h3, h1⟩ := bind_ok h1
  obtain ⟨⟨p, _⟩, _, h1⟩ := bind_ok h1
  obtain ⟨⟨⟨hh, mm, ss⟩, _⟩, _, h1⟩ := bind_ok h1
  obtain ⟨⟨⟨ce, y⟩, _⟩, _, h1⟩ := bind_ok h1
  obtain ⟨_, h4, h1⟩ := bind_ok h1
  cases h1
  rw [mkFullDate_eq] at h4
  split at h4
  · next hv =>
    split at h4
    · next hw =>
      cases h4
      refine ⟨_, _, ws0, t, ws, hv.1.2, hv.2, rfl, ?_, ?_, ?_⟩
      · unfold openWords at h0
        split at h0
        · next hx => cases h0; exact hx
        · cases h0
      · unfold requireToken at h2
        split at h2
        · next hx =>
          cases h2
          revert hx
          generalize parseSp ws0 = u
          intro hx
          unfold wpToken at hx
          split at hx
          · split at hx
            · cases hx; rfl
            · cases hx
          · cases hx
        · cases h2
      · have h5 : wkdayIndex (lowerBytes t) = some dow := by
          revert h3
          cases wkdayIndex (lowerBytes t) <;> simp [orBad]
        unfold dayName
        rw [hw, show ((dow : Int) + 1 - 1).toNat = dow by omega]
        exact wkdayIndex_some h5
    · cases h4
  · cases h4

/-- **C45** is violated by dates: a separator where a number is required raises `TypeError`, a date that does not exist
`DateTimeError`, which is no `ValueError`. -/
theorem C45_date_violation :
    fullDateFromStr ("Sun, 06 Nov 1994 :49:37 GMT".toList.map Char.toNat) = .error .type ∧
    fullDateFromStr ("Sun, 31 Feb 1994 08:49:37 GMT".toList.map Char.toNat) = .error .dateTime := by
  decide +kernel

/-- The conditions of C27 hold for 1994-11-06T10:49:37+02:00, which is written `Sun, 06 Nov 1994 08:49:37 GMT`. -/
example : fullDateToBytes (timePoint ⟨1994, 11, 6⟩ ⟨10, 49, 37⟩ (.east 120)) =
    some ("Sun, 06 Nov 1994 08:49:37 GMT".toList.map Char.toNat) := by decide +kernel
example : YMD.Valid ⟨1994, 11, 6⟩ ∧ Clock.Valid ⟨10, 49, 37⟩ ∧ Zone.Valid (.east 120) ∧
    86400 ≤ instant ⟨1994, 11, 6⟩ ⟨10, 49, 0⟩ (.east 120) ∧ instant ⟨1994, 11, 6⟩ ⟨10, 49, 0⟩ (.east 120) < 86400 * (maxDay + 1) := by
  decide +kernel
/-- A wrong day of the week is rejected. -/
example : fullDateFromStr ("Mon, 06 Nov 1994 08:49:37 GMT".toList.map Char.toNat) = .error .badSyntax := by decide +kernel

end Verif.Http
