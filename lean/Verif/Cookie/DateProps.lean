import Verif.Cookie.Parse
/-!
# C59: dates of cookies
-/
namespace Verif.Cookie
open Http (Bytes splitByte lowerBytes strip rfc1123 rfc850 asctime num clockText dayName monthName wkdayNames weekdayNames monthNames)
open Text (isDigit decVal)
open Iso (TimePoint YMD Clock timePoint mkDate mkTime mkTimePoint)

/-! ## Specification: RFC 6265, section 5.1.1 -/

/-- `lo*hi DIGIT ( non-digit *OCTET )`: the token starts with the digits `ds`. -/
def DigitsThen (lo hi : Nat) (tok ds : Bytes) : Prop :=
  ∃ rest, tok = ds ++ rest ∧ (∀ b ∈ ds, isDigit b = true) ∧ lo ≤ ds.length ∧ ds.length ≤ hi ∧ ∀ b, rest.head? = some b → isDigit b = false

/-- day-of-month -/
def IsDay (tok : Bytes) (n : Nat) : Prop := ∃ ds, DigitsThen 1 2 tok ds ∧ n = decVal ds

/-- year, with the century of years with two digits -/
def IsYear (tok : Bytes) (n : Nat) : Prop :=
  ∃ ds, DigitsThen 2 4 tok ds ∧
    n = if decVal ds ≤ 69 then decVal ds + 2000 else if decVal ds ≤ 99 then decVal ds + 1900 else decVal ds

/-- month: the first three letters of its name, in any case -/
def IsMonth (tok : Bytes) (n : Nat) : Prop := 1 ≤ n ∧ n ≤ 12 ∧ lowerBytes (tok.take 3) = lowerBytes (monthNames.getD (n - 1) [])

/-- `time-field ":" time-field ":" time-field ( non-digit *OCTET )` -/
def IsTime (tok : Bytes) (t : Nat × Nat × Nat) : Prop :=
  ∃ a b c r, tok = a ++ 58 :: (b ++ 58 :: r) ∧ (∀ x ∈ a, isDigit x = true) ∧ (∀ x ∈ b, isDigit x = true) ∧ (a.length = 1 ∨ a.length = 2) ∧
    (b.length = 1 ∨ b.length = 2) ∧ DigitsThen 1 2 r c ∧ t = (decVal a, decVal b, decVal c)

/-- The tokens of a text: the longest runs of characters that are not delimiters. -/
inductive Tokens : Bytes → List Bytes → Prop
  | nil (s : Bytes) : (∀ b ∈ s, isDelim b = true) → Tokens s []
  | cons (d t r : Bytes) (ts : List Bytes) : (∀ b ∈ d, isDelim b = true) → t ≠ [] → (∀ b ∈ t, isDelim b = false) →
      (∀ b, r.head? = some b → isDelim b = true) → Tokens r ts → Tokens (d ++ (t ++ r)) (t :: ts)

/-- The first token that matches is taken out of the list. -/
def First {α : Type} (P : Bytes → α → Prop) (l : List Bytes) (x : α) (rest : List Bytes) : Prop :=
  ∃ pre tok post, l = pre ++ tok :: post ∧ (∀ t ∈ pre, ∀ y, ¬ P t y) ∧ P tok x ∧ rest = pre ++ post

/-! ## Tokens -/

theorem tokenLoop_cur : ∀ (t cur r : Bytes), (∀ b ∈ t, isDelim b = false) → (∀ b, r.head? = some b → isDelim b = true) → cur ++ t ≠ [] →
    tokenLoop cur (t ++ r) = (cur ++ t) :: tokenLoop [] r := by
  intro t
  induction t with
  | nil =>
    intro cur r _ hr hne
    rw [List.append_nil] at hne
    rw [List.nil_append, List.append_nil]
    cases r with
    | nil => rw [tokenLoop, if_neg hne, tokenLoop, if_pos rfl]
    | cons b r =>
      rw [tokenLoop, if_pos (hr b rfl), if_neg hne, tokenLoop, if_pos (hr b rfl), if_pos rfl]
  | cons b t ih =>
    intro cur r ht hr hne
    rw [List.cons_append, tokenLoop, if_neg (by rw [ht b (by simp)]; simp), ih _ _ (fun x hx => ht x (by simp [hx])) hr (by simp)]
    simp

theorem tokenLoop_delims : ∀ (d r : Bytes), (∀ b ∈ d, isDelim b = true) → tokenLoop [] (d ++ r) = tokenLoop [] r := by
  intro d
  induction d with
  | nil => intro r _; rfl
  | cons b d ih =>
    intro r hd
    rw [List.cons_append, tokenLoop, if_pos (hd b (by simp)), if_pos rfl, ih r fun x hx => hd x (by simp [hx])]

theorem tokens_eq {s : Bytes} {ts : List Bytes} (h : Tokens s ts) : tokenLoop [] s = ts := by
  induction h with
  | nil s hs => have := tokenLoop_delims s [] hs; rw [List.append_nil] at this; rw [this]; rfl
  | cons d t r ts hd hn ht hr _ ih => rw [tokenLoop_delims d _ hd, tokenLoop_cur t [] r ht hr (by simpa using hn), ih, List.nil_append]

theorem tokens_exist (s : Bytes) : ∃ ts, Tokens s ts := by
  induction hl : s.length using Nat.strongRecOn generalizing s with
  | _ n ih =>
    have e1 : s = s.takeWhile isDelim ++ s.dropWhile isDelim := (List.takeWhile_append_dropWhile).symm
    have hd : ∀ b ∈ s.takeWhile isDelim, isDelim b = true := fun b hb => by
      have := List.all_takeWhile (l := s) (p := isDelim)
      rw [List.all_eq_true] at this
      exact this b hb
    generalize s.takeWhile isDelim = d at e1 hd
    have hh : ∀ b, (s.dropWhile isDelim).head? = some b → isDelim b = false := by
      intro b hb
      have := List.head?_dropWhile_not isDelim s
      rw [hb] at this
      simpa using this
    generalize s.dropWhile isDelim = u at e1 hh
    cases u with
    | nil => rw [e1, List.append_nil]; exact ⟨[], .nil _ hd⟩
    | cons b u =>
      have hb := hh b rfl
      have e2 : b :: u = (b :: u).takeWhile (fun x => !isDelim x) ++ (b :: u).dropWhile (fun x => !isDelim x) := (List.takeWhile_append_dropWhile).symm
      have ht : ∀ x ∈ (b :: u).takeWhile (fun x => !isDelim x), isDelim x = false := fun x hx => by
        have := List.all_takeWhile (l := b :: u) (p := fun x => !isDelim x)
        rw [List.all_eq_true] at this
        simpa using this x hx
      have hn : (b :: u).takeWhile (fun x => !isDelim x) ≠ [] := by simp [List.takeWhile_cons, hb]
      have hr : ∀ x, ((b :: u).dropWhile (fun x => !isDelim x)).head? = some x → isDelim x = true := by
        intro x hx
        have := List.head?_dropWhile_not (fun x => !isDelim x) (b :: u)
        rw [hx] at this
        simpa using this
      generalize (b :: u).takeWhile (fun x => !isDelim x) = t at e2 ht hn
      generalize (b :: u).dropWhile (fun x => !isDelim x) = r at e2 hr
      have hlen : r.length < n := by
        rw [← hl, e1, e2]
        have := List.length_pos_iff.mpr hn
        simp only [List.length_append]; omega
      obtain ⟨ts, h⟩ := ih r.length hlen r rfl
      exact ⟨t :: ts, by rw [e1, e2]; exact .cons d t r ts hd hn ht hr h⟩

/-! ## Productions -/

theorem digits_split (s : Bytes) : ∃ a r, s = a ++ r ∧ (∀ b ∈ a, isDigit b = true) ∧ ∀ b, r.head? = some b → isDigit b = false := by
  refine ⟨s.takeWhile isDigit, s.dropWhile isDigit, (List.takeWhile_append_dropWhile).symm, ?_, ?_⟩
  · have := List.all_takeWhile (l := s) (p := isDigit)
    rw [List.all_eq_true] at this
    exact this
  · intro b hb
    have := List.head?_dropWhile_not isDigit s
    rw [hb] at this
    simpa using this

theorem split_unique {p : Nat → Bool} : ∀ {a a' r r' : Bytes}, a ++ r = a' ++ r' → (∀ b ∈ a, p b = true) → (∀ b ∈ a', p b = true) →
    (∀ b, r.head? = some b → p b = false) → (∀ b, r'.head? = some b → p b = false) → a = a' ∧ r = r' := by
  intro a
  induction a with
  | nil =>
    intro a' r r' h _ h2 h3 _
    cases a' with
    | nil => exact ⟨rfl, h⟩
    | cons x a' =>
      rw [List.nil_append] at h
      have := h3 x (by rw [h]; rfl)
      rw [h2 x (by simp)] at this; cases this
  | cons x a ih =>
    intro a' r r' h h1 h2 h3 h4
    cases a' with
    | nil =>
      rw [List.nil_append] at h
      have := h4 x (by rw [← h]; rfl)
      rw [h1 x (by simp)] at this; cases this
    | cons y a' =>
      rw [List.cons_append, List.cons_append, List.cons.injEq] at h
      obtain ⟨rfl, h⟩ := h
      obtain ⟨rfl, rfl⟩ := ih h (fun b hb => h1 b (by simp [hb])) (fun b hb => h2 b (by simp [hb])) h3 h4
      exact ⟨rfl, rfl⟩

theorem digitLoop_eq (max : Nat) : ∀ (a ds r : Bytes), (∀ b ∈ a, isDigit b = true) → (∀ b, r.head? = some b → isDigit b = false) → ds.length ≤ max →
    digitLoop max ds (a ++ r) = if (ds ++ a).length > max then none else some (ds ++ a) := by
  intro a
  induction a with
  | nil =>
    intro ds r _ hr hl
    rw [List.append_nil, if_neg (by omega), List.nil_append]
    cases r with
    | nil => rfl
    | cons b r => rw [digitLoop, if_neg (by rw [hr b rfl]; simp)]
  | cons x a ih =>
    intro ds r ha hr hl
    rw [List.cons_append, digitLoop, if_pos (ha x (by simp))]
    by_cases h : (ds ++ [x]).length > max
    · rw [if_pos h, if_pos (by simp at h ⊢; omega)]
    · rw [if_neg h, ih _ _ (fun b hb => ha b (by simp [hb])) hr (by omega)]
      simp

theorem splitDay_iff (tok : Bytes) (n : Nat) : splitDay tok = some n ↔ IsDay tok n := by
  obtain ⟨a, r, rfl, ha, hr⟩ := digits_split tok
  unfold splitDay
  rw [digitLoop_eq 2 a [] r ha hr (by simp), List.nil_append]
  constructor
  · intro h
    split at h
    · cases h
    · rename_i h1
      simp only [Option.bind_some] at h
      split at h
      · cases h
      · cases h
        exact ⟨a, ⟨r, rfl, ha, by omega, by omega, hr⟩, rfl⟩
  · rintro ⟨ds, ⟨rest, e, h1, h2, h3, h4⟩, rfl⟩
    obtain ⟨rfl, rfl⟩ := split_unique e ha h1 hr h4
    rw [if_neg (by omega), Option.bind_some, if_neg (by omega)]

theorem fixYear_eq (n : Nat) : fixYear n = if n ≤ 69 then n + 2000 else if n ≤ 99 then n + 1900 else n := by
  unfold fixYear
  by_cases h1 : n ≤ 69
  · rw [if_pos h1, if_neg (by omega), if_pos (by omega)]
  · by_cases h2 : n ≤ 99
    · rw [if_neg h1, if_pos h2, if_pos (by omega)]
    · rw [if_neg h1, if_neg h2, if_neg (by omega), if_neg (by omega)]

theorem splitYear_iff (tok : Bytes) (n : Nat) : splitYear tok = some n ↔ IsYear tok n := by
  obtain ⟨a, r, rfl, ha, hr⟩ := digits_split tok
  unfold splitYear
  rw [digitLoop_eq 4 a [] r ha hr (by simp), List.nil_append]
  constructor
  · intro h
    split at h
    · cases h
    · rename_i h1
      simp only [Option.bind_some] at h
      split at h
      · cases h
      · cases h
        exact ⟨a, ⟨r, rfl, ha, by omega, by omega, hr⟩, fixYear_eq _⟩
  · rintro ⟨ds, ⟨rest, e, h1, h2, h3, h4⟩, rfl⟩
    obtain ⟨rfl, rfl⟩ := split_unique e ha h1 hr h4
    rw [if_neg (by omega), Option.bind_some, if_neg (by omega), fixYear_eq]

theorem splitMonth_iff (tok : Bytes) (n : Nat) : splitMonth tok = some n ↔ IsMonth tok n := by
  unfold splitMonth IsMonth
  have hm : months = monthNames.map lowerBytes := by decide +kernel
  have hl : monthNames.length = 12 := by decide +kernel
  rw [hm]
  constructor
  · intro h
    rw [Option.map_eq_some_iff] at h
    obtain ⟨i, h, rfl⟩ := h
    rw [List.findIdx?_eq_some_iff_getElem] at h
    obtain ⟨h1, h2, _⟩ := h
    simp only [List.length_map] at h1
    rw [beq_iff_eq, List.getElem_map] at h2
    refine ⟨by omega, by omega, ?_⟩
    rw [← h2, Nat.add_sub_cancel, List.getD, List.getElem?_eq_getElem h1]; rfl
  · rintro ⟨h1, h2, h3⟩
    rw [h3]
    have : n - 1 < 12 := by omega
    obtain ⟨k, rfl⟩ : ∃ k, n = k + 1 := ⟨n - 1, by omega⟩
    rw [Nat.add_sub_cancel] at this ⊢
    clear h1 h2 h3
    revert k
    decide +kernel

theorem timeLoop_field : ∀ (a : Bytes) (cs : List Nat) (ds r : Bytes), (∀ b ∈ a, isDigit b = true) → (∀ b, r.head? = some b → isDigit b = false) → ds.length ≤ 2 →
    timeLoop cs ds (a ++ r) = if (ds ++ a).length > 2 then none else match r with
      | [] => some (cs, ds ++ a)
      | b :: r' => if ds ++ a = [] then none else if (cs ++ [decVal (ds ++ a)]).length = 3 ∨ b ≠ 58 then some (cs ++ [decVal (ds ++ a)], [])
        else timeLoop (cs ++ [decVal (ds ++ a)]) [] r' := by
  intro a
  induction a with
  | nil =>
    intro cs ds r _ hr hl
    rw [List.append_nil, if_neg (by omega), List.nil_append]
    cases r with
    | nil => rfl
    | cons b r =>
      rw [timeLoop, if_neg (by rw [hr b rfl]; simp)]
      dsimp only
      by_cases h : ds.length < 1
      · rw [if_pos h, if_pos (List.eq_nil_of_length_eq_zero (by omega))]
      · rw [if_neg h, if_neg (show ¬ ds = [] by rintro rfl; simp at h)]
  | cons x a ih =>
    intro cs ds r ha hr hl
    rw [List.cons_append, timeLoop, if_pos (ha x (by simp))]
    by_cases h : (ds ++ [x]).length > 2
    · rw [if_pos h, if_pos (by simp at h ⊢; omega)]
    · rw [if_neg h, ih _ _ _ (fun b hb => ha b (by simp [hb])) hr (by omega)]
      simp

/-- One field and what follows it. -/
theorem splitTime_iff (tok : Bytes) (t : Nat × Nat × Nat) : splitTime tok = some t ↔ IsTime tok t := by
  constructor
  · intro h
    unfold splitTime at h
    obtain ⟨a, r1, rfl, ha, hr1⟩ := digits_split tok
    rw [timeLoop_field a [] [] r1 ha hr1 (by simp), List.nil_append] at h
    split at h
    · cases h
    rename_i la
    cases r1 with
    | nil =>
      dsimp only [Option.bind_some] at h
      unfold timeEnd at h
      dsimp only at h
      split at h
      · rename_i e; split at e <;> cases e
      · cases h
    | cons b1 r1 =>
      dsimp only at h
      split at h
      · cases h
      rename_i na
      split at h
      · -- not a colon
        simp only [Option.bind_some, timeEnd] at h
        split at h
        · rename_i e; simp at e
        · cases h
      rename_i hb1
      have hb1 : b1 = 58 := by
        have := (not_or.mp hb1).2
        exact Decidable.not_not.mp this
      subst hb1
      obtain ⟨b, r2, rfl, hb, hr2⟩ := digits_split r1
      rw [timeLoop_field b _ [] r2 hb hr2 (by simp), List.nil_append, List.nil_append] at h
      split at h
      · cases h
      rename_i lb
      cases r2 with
      | nil =>
        dsimp only [Option.bind_some] at h
        unfold timeEnd at h
        dsimp only at h
        split at h
        · rename_i e; split at e <;> cases e
        · cases h
      | cons b2 r2 =>
        dsimp only at h
        split at h
        · cases h
        rename_i nb
        split at h
        · simp only [Option.bind_some, timeEnd] at h
          split at h
          · rename_i e; simp at e
          · cases h
        rename_i hb2
        have hb2 : b2 = 58 := by
          have := (not_or.mp hb2).2
          exact Decidable.not_not.mp this
        subst hb2
        obtain ⟨c, r3, rfl, hc, hr3⟩ := digits_split r2
        rw [timeLoop_field c _ [] r3 hc hr3 (by simp), List.nil_append] at h
        split at h
        · cases h
        rename_i lc
        have na' := List.length_pos_iff.mpr na
        have nb' := List.length_pos_iff.mpr nb
        have fin : c ≠ [] ∧ t = (decVal a, decVal b, decVal c) := by
          cases r3 with
          | nil =>
            dsimp only [Option.bind_some] at h
            unfold timeEnd at h
            dsimp only at h
            by_cases hcn : c = []
            · rw [if_neg (by simpa using hcn)] at h
              cases h
            · rw [if_pos hcn] at h
              cases h
              exact ⟨hcn, rfl⟩
          | cons b3 r3 =>
            dsimp only at h
            by_cases hcn : c = []
            · rw [if_pos hcn] at h; cases h
            · rw [if_neg hcn, if_pos (.inl (by simp))] at h
              simp only [Option.bind_some, timeEnd] at h
              cases h
              exact ⟨hcn, rfl⟩
        have nc' := List.length_pos_iff.mpr fin.1
        exact ⟨a, b, c, c ++ r3, rfl, ha, hb, by omega, by omega, ⟨r3, rfl, hc, by omega, by omega, hr3⟩, fin.2⟩
  · rintro ⟨a, b, c, r, rfl, ha, hb, la, lb, ⟨r3, rfl, hc, lc1, lc2, hr3⟩, rfl⟩
    unfold splitTime
    have ha0 : a ≠ [] := by rintro rfl; simp at la
    have hb0 : b ≠ [] := by rintro rfl; simp at lb
    have hc0 : c ≠ [] := by rintro rfl; simp at lc1
    rw [timeLoop_field a [] [] _ ha (by intro x hx; cases hx; rfl) (by simp), List.nil_append, if_neg (by omega)]
    dsimp only
    rw [if_neg ha0, if_neg (by simp), timeLoop_field b _ [] _ hb (by intro x hx; cases hx; rfl) (by simp), List.nil_append, if_neg (by omega)]
    dsimp only
    rw [if_neg hb0, if_neg (by simp), timeLoop_field c _ [] _ hc hr3 (by simp), List.nil_append, if_neg (by omega)]
    cases r3 with
    | nil => simp [timeEnd, hc0]
    | cons x r3 =>
      dsimp only
      rw [if_neg hc0, if_pos (.inl (by simp))]
      simp [timeEnd]

/-! ## The loop over the tokens -/

/-- Take out the first token for which `f` succeeds. -/
def pick {α : Type} (f : Bytes → Option α) : List Bytes → Option (α × List Bytes)
  | [] => none
  | t :: l => match f t with
    | some x => some (x, l)
    | none => (pick f l).map fun p => (p.1, t :: p.2)

/-- The same, unless a value was found before. -/
def pickOr {α : Type} (f : Bytes → Option α) (cur : Option α) (l : List Bytes) : Option α × List Bytes :=
  match cur with
  | some x => (some x, l)
  | none => match pick f l with
    | some (x, r) => (some x, r)
    | none => (none, l)

theorem pickOr_take {α : Type} {f : Bytes → Option α} {t : Bytes} (l : List Bytes) (h : (f t).isSome) : pickOr f none (t :: l) = pickOr f (f t) l := by
  obtain ⟨x, hx⟩ := Option.isSome_iff_exists.mp h
  simp [pickOr, pick, hx]

theorem pickOr_skip {α : Type} {f : Bytes → Option α} {cur : Option α} {t : Bytes} (l : List Bytes) (h : ¬ (cur.isNone ∧ (f t).isSome)) :
    pickOr f cur (t :: l) = ((pickOr f cur l).1, t :: (pickOr f cur l).2) := by
  cases cur with
  | some x => rfl
  | none =>
    have : f t = none := by
      cases hf : f t with
      | none => rfl
      | some x => exact absurd ⟨rfl, by rw [hf]; rfl⟩ h
    simp only [pickOr, pick, this]
    cases pick f l with
    | none => rfl
    | some p => rfl

theorem found_fold : ∀ (l : List Bytes) (F : Found), l.foldl Found.next F =
    let a := pickOr splitTime F.time l
    let b := pickOr splitDay F.day a.2
    let c := pickOr splitMonth F.month b.2
    let d := pickOr splitYear F.year c.2
    ⟨a.1, b.1, c.1, d.1⟩ := by
  intro l
  induction l with
  | nil =>
    intro F
    have : ∀ {α : Type} (f : Bytes → Option α) (cur : Option α), pickOr f cur [] = (cur, []) := by intro α f cur; cases cur <;> rfl
    simp [this]
  | cons t l ih =>
    intro F
    rw [List.foldl_cons, ih]
    unfold Found.next
    by_cases h1 : F.time.isNone ∧ (splitTime t).isSome
    · rw [if_pos h1]
      have h0 : F.time = none := Option.isNone_iff_eq_none.mp h1.1
      dsimp only
      rw [h0, pickOr_take l h1.2]
    · rw [if_neg h1]
      dsimp only
      rw [pickOr_skip (f := splitTime) (cur := F.time) l h1]
      dsimp only
      unfold Found.tryDay
      by_cases h2 : F.day.isNone ∧ (splitDay t).isSome
      · rw [if_pos h2]
        have h0 : F.day = none := Option.isNone_iff_eq_none.mp h2.1
        dsimp only
        rw [h0, pickOr_take _ h2.2]
      · rw [if_neg h2]
        rw [pickOr_skip (f := splitDay) (cur := F.day) _ h2]
        dsimp only
        unfold Found.tryMonth
        by_cases h3 : F.month.isNone ∧ (splitMonth t).isSome
        · rw [if_pos h3]
          have h0 : F.month = none := Option.isNone_iff_eq_none.mp h3.1
          dsimp only
          rw [h0, pickOr_take _ h3.2]
        · rw [if_neg h3]
          rw [pickOr_skip (f := splitMonth) (cur := F.month) _ h3]
          dsimp only
          unfold Found.tryYear
          by_cases h4 : F.year.isNone ∧ (splitYear t).isSome
          · rw [if_pos h4.1]
            have h0 : F.year = none := Option.isNone_iff_eq_none.mp h4.1
            dsimp only
            rw [h0, pickOr_take _ h4.2]
          · rw [pickOr_skip (f := splitYear) (cur := F.year) _ h4]
            by_cases h5 : F.year.isNone
            · rw [if_pos h5]
              have h0 : F.year = none := Option.isNone_iff_eq_none.mp h5
              have h6 : splitYear t = none := by
                cases hf : splitYear t with
                | none => rfl
                | some x => exact absurd ⟨h5, by rw [hf]; rfl⟩ h4
              dsimp only
              rw [h0, h6]
            · rw [if_neg h5]

theorem pick_iff {α : Type} {f : Bytes → Option α} {P : Bytes → α → Prop} (hf : ∀ t x, f t = some x ↔ P t x) : ∀ (l : List Bytes) (x : α) (r : List Bytes),
    pick f l = some (x, r) ↔ First P l x r := by
  intro l
  induction l with
  | nil =>
    intro x r
    constructor
    · intro h; cases h
    · rintro ⟨pre, tok, post, h, _⟩; simp at h
  | cons t l ih =>
    intro x r
    rw [pick]
    cases ht : f t with
    | some y =>
      dsimp only
      constructor
      · intro h
        cases h
        exact ⟨[], t, l, rfl, by simp, (hf t x).mp ht, rfl⟩
      · rintro ⟨pre, tok, post, h, h1, h2, rfl⟩
        cases pre with
        | nil =>
          cases h
          have := (hf t x).mpr h2
          rw [ht] at this
          cases this; rfl
        | cons p pre =>
          cases h
          exact absurd ((hf t y).mp ht) (h1 t (by simp) y)
    | none =>
      dsimp only
      rw [Option.map_eq_some_iff]
      constructor
      · rintro ⟨⟨x', r'⟩, h, e⟩
        cases e
        obtain ⟨pre, tok, post, rfl, h1, h2, rfl⟩ := (ih _ _).mp h
        refine ⟨t :: pre, tok, post, rfl, ?_, h2, rfl⟩
        intro u hu y hy
        rcases List.mem_cons.mp hu with rfl | hu
        · have := (hf u y).mpr hy; rw [ht] at this; cases this
        · exact h1 u hu y hy
      · rintro ⟨pre, tok, post, h, h1, h2, rfl⟩
        cases pre with
        | nil =>
          cases h
          have := (hf t x).mpr h2
          rw [ht] at this; cases this
        | cons p pre =>
          cases h
          exact ⟨(x, pre ++ post), (ih x _).mpr ⟨pre, tok, post, rfl, fun u hu => h1 u (by simp [hu]), h2, rfl⟩, rfl⟩

theorem pickOr_none {α : Type} {f : Bytes → Option α} {l : List Bytes} {x : α} : (pickOr f none l).1 = some x ↔ ∃ r, pick f l = some (x, r) ∧ (pickOr f none l).2 = r := by
  unfold pickOr
  cases h : pick f l with
  | none => simp
  | some p => obtain ⟨y, r⟩ := p; simp

theorem makeDate_eq (year month day hour minute second : Nat) : makeDate year month day hour minute second =
    if YMD.Valid ⟨year, month, day⟩ ∧ Clock.Valid ⟨hour, minute, second⟩ then some (timePoint ⟨year, month, day⟩ ⟨hour, minute, second⟩ .utc) else none := by
  have e0 : (100 * ((year / 100 : Nat) : Int) + ((year % 100 : Nat) : Int)) = (year : Int) := by omega
  have e1 := (Iso.C37_calendar ((year / 100 : Nat) : Int) ((year % 100 : Nat) : Int) (month : Int) day).2.2.2
  rw [e0] at e1
  have e2 := Iso.mkTime_named ⟨hour, minute, second⟩ .utc trivial (some 0) none none rfl
  unfold makeDate
  rw [e1, e2]
  by_cases h1 : YMD.Valid ⟨year, month, day⟩
  · have hy : (0 : Int) ≤ ((year / 100 : Nat) : Int) := by omega
    rw [if_pos ⟨by omega, by omega, h1⟩]
    dsimp only
    by_cases h2 : Clock.Valid ⟨hour, minute, second⟩
    · have e3 := Iso.mkTimePoint_complete _ h1 ⟨hour, minute, second⟩ .utc trivial
      rw [if_pos h2] at e3
      rw [if_pos h2, if_pos ⟨h1, h2⟩]
      exact e3
    · rw [if_neg h2, if_neg (fun h => h2 h.2)]
  · rw [if_neg (fun h => h1 h.2.2)]
    dsimp only
    rw [if_neg (fun h => h1 h.1)]

/-- **C59**: the date of a cookie is read as RFC 6265, section 5.1.1, says: of the tokens of the text, the first that is a time is the time; of the
others the first that is a day of the month is the day; of the others the first that is a month is the month; of the others the first that is
a year is the year; the result is that date and time in UTC, if it exists and is not before 1601, and otherwise None. -/
theorem C59_date (s : Bytes) (tp : TimePoint) : cookieDate s = some tp ↔
    ∃ toks h m sec r1 day r2 month r3 year r4, Tokens s toks ∧ First IsTime toks (h, m, sec) r1 ∧ First IsDay r1 day r2 ∧ First IsMonth r2 month r3 ∧
      First IsYear r3 year r4 ∧ h ≤ 23 ∧ m ≤ 59 ∧ sec ≤ 59 ∧ 1601 ≤ year ∧ YMD.Valid ⟨year, month, day⟩ ∧
      tp = timePoint ⟨year, month, day⟩ ⟨h, m, sec⟩ .utc := by
  obtain ⟨toks, ht⟩ := tokens_exist s
  unfold cookieDate
  rw [tokens_eq ht, found_fold]
  dsimp only
  unfold Found.result
  dsimp only
  constructor
  · intro h
    split at h
    · rename_i hour minute second day month year h1 h2 h3 h4
      obtain ⟨r1, p1, e1⟩ := pickOr_none.mp h1
      rw [e1] at h2 h3 h4
      obtain ⟨r2, p2, e2⟩ := pickOr_none.mp h2
      rw [e2] at h3 h4
      obtain ⟨r3, p3, e3⟩ := pickOr_none.mp h3
      rw [e3] at h4
      obtain ⟨r4, p4, e4⟩ := pickOr_none.mp h4
      have q3 := (pick_iff splitMonth_iff _ _ _).mp p3
      have hm : 1 ≤ month := by obtain ⟨_, _, _, _, _, h, _⟩ := q3; exact h.1
      split at h
      · cases h
      split at h
      · cases h
      split at h
      · cases h
      rw [makeDate_eq] at h
      split at h
      · rename_i hv
        cases h
        exact ⟨toks, hour, minute, second, r1, day, r2, month, r3, year, r4, ht, (pick_iff splitTime_iff _ _ _).mp p1, (pick_iff splitDay_iff _ _ _).mp p2,
          q3, (pick_iff splitYear_iff _ _ _).mp p4, by omega, by omega, by omega, by omega, hv.1, rfl⟩
      · cases h
    · cases h
  · rintro ⟨toks', h, m, sec, r1, day, r2, month, r3, year, r4, ht', p1, p2, p3, p4, l1, l2, l3, l4, hv, rfl⟩
    have hm : 1 ≤ month := by obtain ⟨_, _, _, _, _, h, _⟩ := p3; exact h.1
    have e : toks' = toks := by rw [← tokens_eq ht, ← tokens_eq ht']
    subst e
    have q1 := (pick_iff splitTime_iff _ _ _).mpr p1
    have q2 := (pick_iff splitDay_iff _ _ _).mpr p2
    have q3 := (pick_iff splitMonth_iff _ _ _).mpr p3
    have q4 := (pick_iff splitYear_iff _ _ _).mpr p4
    simp only [pickOr, q1, q2, q3, q4]
    have hv' := hv
    simp only [YMD.Valid] at hv'
    have hml : Iso.monthLen (year : Int) (month : Int) ≤ 31 := by
      unfold Iso.monthLen; split <;> (try split) <;> (try split) <;> omega
    rw [if_neg (by omega), if_neg (by omega), if_neg (by omega), makeDate_eq, if_pos ⟨hv, by simp only [Clock.Valid]; omega⟩]

/-! ## The formats of HTTP -/

theorem isDelim_tok {d t r : Bytes} (hd : ∀ b ∈ d, isDelim b = true) (hn : t ≠ []) (ht : ∀ b ∈ t, isDelim b = false)
    (hr : ∀ b, r.head? = some b → isDelim b = true) : tokenLoop [] (d ++ (t ++ r)) = t :: tokenLoop [] r := by
  rw [tokenLoop_delims d _ hd, tokenLoop_cur t [] r ht hr (by simpa using hn), List.nil_append]

theorem digit_nodelim {b : Nat} (h : isDigit b = true) : isDelim b = false := by
  simp only [isDigit, Bool.and_eq_true, decide_eq_true_eq] at h
  have : ∀ b < 58, 48 ≤ b → isDelim b = false := by decide +kernel
  exact this b (by omega) h.1

theorem num_nodelim (w : Nat) (n : Int) : ∀ b ∈ num w n, isDelim b = false := fun b hb => digit_nodelim (Http.num_digit b hb)

theorem clock_nodelim (c : Clock) : clockText c ≠ [] ∧ ∀ b ∈ clockText c, isDelim b = false := by
  refine ⟨by simp [clockText], ?_⟩
  intro b hb
  simp only [clockText, List.mem_append, List.mem_singleton] at hb
  rcases hb with (((hb | rfl) | hb) | rfl) | hb
  · exact num_nodelim _ _ b hb
  · decide
  · exact num_nodelim _ _ b hb
  · decide
  · exact num_nodelim _ _ b hb

theorem num_len {w : Nat} {n : Int} (h0 : 0 ≤ n) (h1 : n < 10 ^ w) (hw : 0 < w) : (num w n).length = w := by
  unfold num
  apply Text.decPad_length _ hw
  have : ((10 ^ w : Nat) : Int) = (10 : Int) ^ w := by simp
  omega

theorem num1_len {n : Int} (h0 : 0 ≤ n) (h1 : n < 100) : (num 1 n).length = 1 ∨ (num 1 n).length = 2 := by
  have hn : n.toNat < 100 := by omega
  unfold num
  generalize n.toNat = k at hn
  revert k
  decide +kernel

theorem splitTime_clock (c : Clock) (hc : c.Valid) : splitTime (clockText c) = some (c.h.toNat, c.m.toNat, c.s.toNat) := by
  simp only [Clock.Valid] at hc
  rw [splitTime_iff]
  refine ⟨num 2 c.h, num 2 c.m, num 2 c.s, num 2 c.s, by simp [clockText], Http.num_digit, Http.num_digit, .inr (num_len (by omega) (by omega) (by omega)),
    .inr (num_len (by omega) (by omega) (by omega)), ⟨[], by simp, Http.num_digit, ?_, ?_, by simp⟩, by simp [Http.num_val]⟩
  · rw [num_len (by omega) (by omega) (by omega)]; omega
  · rw [num_len (by omega) (by omega) (by omega)]; omega

theorem splitTime_num (w : Nat) (n : Int) : splitTime (num w n) = none := by
  cases h : splitTime (num w n) with
  | none => rfl
  | some t =>
    rw [splitTime_iff] at h
    obtain ⟨a, b, c, r, e, _⟩ := h
    have : (58 : Nat) ∈ num w n := by rw [e]; simp
    have := Http.num_digit 58 this
    cases this

theorem splitDay_num {w : Nat} {n : Int} (h : (num w n).length = 1 ∨ (num w n).length = 2) : splitDay (num w n) = some n.toNat := by
  rw [splitDay_iff]
  exact ⟨num w n, ⟨[], by simp, Http.num_digit, by omega, by omega, by simp⟩, (Http.num_val w n).symm⟩

theorem splitYear_num {n : Int} (h0 : 100 ≤ n) (h1 : n ≤ 9999) : splitYear (num 4 n) = some n.toNat := by
  rw [splitYear_iff]
  have hl := num_len (w := 4) (n := n) (by omega) (by omega) (by omega)
  refine ⟨num 4 n, ⟨[], by simp, Http.num_digit, by omega, by omega, by simp⟩, ?_⟩
  rw [Http.num_val, if_neg (by omega), if_neg (by omega)]

theorem splitYear_num2 {n : Int} (h0 : 1970 ≤ n) (h1 : n ≤ 2069) : splitYear (num 2 (n % 100)) = some n.toNat := by
  rw [splitYear_iff]
  have hl := num_len (w := 2) (n := n % 100) (by omega) (by omega) (by omega)
  refine ⟨num 2 (n % 100), ⟨[], by simp, Http.num_digit, by omega, by omega, by simp⟩, ?_⟩
  rw [Http.num_val]
  by_cases h : (n % 100).toNat ≤ 69
  · rw [if_pos h]; omega
  · rw [if_neg h, if_pos (by omega)]; omega

/-- Names are not numbers or times. -/
theorem name_props : (∀ n < 7, ∀ l ∈ [wkdayNames, weekdayNames], (l.getD n [] ≠ [] ∧ (∀ b ∈ l.getD n [], isDelim b = false) ∧
      splitTime (l.getD n []) = none ∧ splitDay (l.getD n []) = none ∧ splitMonth (l.getD n []) = none ∧ splitYear (l.getD n []) = none)) ∧
    ∀ n < 12, (monthNames.getD n [] ≠ [] ∧ (∀ b ∈ monthNames.getD n [], isDelim b = false) ∧
      splitTime (monthNames.getD n []) = none ∧ splitDay (monthNames.getD n []) = none ∧ splitMonth (monthNames.getD n []) = some (n + 1)) := by
  decide +kernel

/-- The tokens in the order of RFC 1123 and RFC 850. -/
theorem result_order1 (d : YMD) (hd : d.Valid) (c : Clock) (hc : c.Valid) (hh : c.h ≤ 23) (hs : c.s ≤ 59) (hy : 1601 ≤ d.y) {wk mo day yr z : Bytes}
    (w1 : splitTime wk = none) (w2 : splitDay wk = none) (w3 : splitMonth wk = none) (w4 : splitYear wk = none)
    (d1 : splitTime day = none) (d2 : splitDay day = some d.d.toNat)
    (m1 : splitTime mo = none) (m3 : splitMonth mo = some d.m.toNat)
    (y1 : splitTime yr = none) (y4 : splitYear yr = some d.y.toNat) :
    ([wk, day, mo, yr, clockText c, z].foldl Found.next {}).result = some (timePoint d c .utc) := by
  have hd' := hd
  simp only [YMD.Valid] at hd'
  have hc' := hc
  simp only [Clock.Valid] at hc'
  have hml : Iso.monthLen d.y d.m ≤ 31 := by
    unfold Iso.monthLen; split <;> (try split) <;> (try split) <;> omega
  rw [found_fold]
  simp only [pickOr, pick, w1, w2, w3, w4, d1, d2, m1, m3, y1, y4, splitTime_clock c hc, Option.map_some, Found.result]
  rw [if_neg (by omega), if_neg (by omega), if_neg (by omega), makeDate_eq]
  have e1 : (⟨d.y.toNat, d.m.toNat, d.d.toNat⟩ : YMD) = d := by
    rw [Http.toNat_cast (by omega), Http.toNat_cast (by omega), Http.toNat_cast (by omega)]
  have e2 : (⟨c.h.toNat, c.m.toNat, c.s.toNat⟩ : Clock) = c := by
    rw [Http.toNat_cast (by omega), Http.toNat_cast (by omega), Http.toNat_cast (by omega)]
  rw [e1, e2, if_pos ⟨hd, hc⟩]

/-- The tokens in the order of asctime. -/
theorem result_order2 (d : YMD) (hd : d.Valid) (c : Clock) (hc : c.Valid) (hh : c.h ≤ 23) (hs : c.s ≤ 59) (hy : 1601 ≤ d.y) {wk mo day yr : Bytes}
    (w1 : splitTime wk = none) (w2 : splitDay wk = none) (w3 : splitMonth wk = none) (w4 : splitYear wk = none)
    (d1 : splitTime day = none) (d2 : splitDay day = some d.d.toNat)
    (m1 : splitTime mo = none) (m2 : splitDay mo = none) (m3 : splitMonth mo = some d.m.toNat)
    (y4 : splitYear yr = some d.y.toNat) :
    ([wk, mo, day, clockText c, yr].foldl Found.next {}).result = some (timePoint d c .utc) := by
  have hd' := hd
  simp only [YMD.Valid] at hd'
  have hc' := hc
  simp only [Clock.Valid] at hc'
  have hml : Iso.monthLen d.y d.m ≤ 31 := by
    unfold Iso.monthLen; split <;> (try split) <;> (try split) <;> omega
  rw [found_fold]
  simp only [pickOr, pick, w1, w2, w3, w4, d1, d2, m1, m2, m3, y4, splitTime_clock c hc, Option.map_some, Found.result]
  rw [if_neg (by omega), if_neg (by omega), if_neg (by omega), makeDate_eq]
  have e1 : (⟨d.y.toNat, d.m.toNat, d.d.toNat⟩ : YMD) = d := by
    rw [Http.toNat_cast (by omega), Http.toNat_cast (by omega), Http.toNat_cast (by omega)]
  have e2 : (⟨c.h.toNat, c.m.toNat, c.s.toNat⟩ : Clock) = c := by
    rw [Http.toNat_cast (by omega), Http.toNat_cast (by omega), Http.toNat_cast (by omega)]
  rw [e1, e2, if_pos ⟨hd, hc⟩]

theorem dayName_lt (d : YMD) : (d.weekday - 1).toNat < 7 := by have := Http.weekday_range d; omega

/-- **C59**: the three formats of HTTP dates are read as the date and time that they show, from 1601 on (the format of RFC 850, which has two
digits for the year, for the years 1970 to 2069). -/
theorem C59_formats (d : YMD) (hd : d.Valid) (c : Clock) (hc : c.Valid) (hh : c.h ≤ 23) (hs : c.s ≤ 59) :
    (1601 ≤ d.y → cookieDate (rfc1123 d c) = some (timePoint d c .utc) ∧ cookieDate (asctime d c) = some (timePoint d c .utc)) ∧
    (1970 ≤ d.y → d.y ≤ 2069 → cookieDate (rfc850 d c) = some (timePoint d c .utc)) := by
  have hd' := hd
  simp only [YMD.Valid] at hd'
  have hml : Iso.monthLen d.y d.m ≤ 31 := by
    unfold Iso.monthLen; split <;> (try split) <;> (try split) <;> omega
  obtain ⟨a1, a2, a3, a4, a5, a6⟩ : dayName wkdayNames d ≠ [] ∧ (∀ b ∈ dayName wkdayNames d, isDelim b = false) ∧ splitTime (dayName wkdayNames d) = none ∧ splitDay (dayName wkdayNames d) = none ∧ splitMonth (dayName wkdayNames d) = none ∧ splitYear (dayName wkdayNames d) = none := name_props.1 _ (dayName_lt d) wkdayNames (by simp)
  obtain ⟨b1, b2, b3, b4, b5, b6⟩ : dayName weekdayNames d ≠ [] ∧ (∀ b ∈ dayName weekdayNames d, isDelim b = false) ∧ splitTime (dayName weekdayNames d) = none ∧ splitDay (dayName weekdayNames d) = none ∧ splitMonth (dayName weekdayNames d) = none ∧ splitYear (dayName weekdayNames d) = none := name_props.1 _ (dayName_lt d) weekdayNames (by simp)
  obtain ⟨m1, m2, m3, m4, m5⟩ : monthName d ≠ [] ∧ (∀ b ∈ monthName d, isDelim b = false) ∧ splitTime (monthName d) = none ∧ splitDay (monthName d) = none ∧ splitMonth (monthName d) = some ((d.m - 1).toNat + 1) := name_props.2 (d.m - 1).toNat (by omega)
  rw [show (d.m - 1).toNat + 1 = d.m.toNat by omega] at m5
  have hday2 : (num 2 d.d).length = 1 ∨ (num 2 d.d).length = 2 := .inr (num_len (by omega) (by omega) (by omega))
  obtain ⟨k1, k2⟩ := clock_nodelim c
  have nn := Http.num_ne_nil
  have c32 : ∀ b ∈ ([32] : Bytes), isDelim b = true := by decide
  have c45 : ∀ b ∈ ([45] : Bytes), isDelim b = true := by decide
  have c44 : ∀ b ∈ ([44, 32] : Bytes), isDelim b = true := by decide
  have hd0 : ∀ b ∈ ([] : Bytes), isDelim b = true := by simp
  refine ⟨fun hy => ⟨?_, ?_⟩, fun hy1 hy2 => ?_⟩
  · unfold cookieDate
    have e : rfc1123 d c = [] ++ (dayName wkdayNames d ++ ([44, 32] ++ (num 2 d.d ++ ([32] ++ (monthName d ++ ([32] ++ (num 4 d.y ++ ([32] ++ (clockText c ++ ([32] ++ ([71, 77, 84] ++ []))))))))))) := by
      simp [rfc1123, Http.gmt]
    rw [e, isDelim_tok hd0 a1 a2 (fun b hb => by cases hb; rfl), isDelim_tok c44 (nn _ _) (num_nodelim _ _) (fun b hb => by cases hb; rfl), isDelim_tok c32 m1 m2 (fun b hb => by cases hb; rfl),
      isDelim_tok c32 (nn _ _) (num_nodelim _ _) (fun b hb => by cases hb; rfl), isDelim_tok c32 k1 k2 (fun b hb => by cases hb; rfl), isDelim_tok c32 (by decide) (by decide) (by simp),
      show tokenLoop [] [] = [] from rfl]
    exact result_order1 d hd c hc hh hs hy a3 a4 a5 a6 (splitTime_num _ _) (splitDay_num hday2) m3 m5 (splitTime_num _ _) (splitYear_num (by omega) (by omega))
  · unfold cookieDate
    have e : asctime d c = [] ++ (dayName wkdayNames d ++ ([32] ++ (monthName d ++ ((if d.d < 10 then [32, 32] else [32]) ++ (num 1 d.d ++ ([32] ++ (clockText c ++ ([32] ++ (num 4 d.y ++ []))))))))) := by
      simp [asctime]
    have hsp : ∀ b ∈ (if d.d < 10 then [32, 32] else [32] : Bytes), isDelim b = true := by split <;> decide
    have hsp' : ∀ (r : Bytes) b, ((if d.d < 10 then [32, 32] else [32]) ++ r).head? = some b → isDelim b = true := by
      intro r b hb; split at hb <;> (cases hb; rfl)
    rw [e, isDelim_tok hd0 a1 a2 (fun b hb => by cases hb; rfl), isDelim_tok c32 m1 m2 (hsp' _), isDelim_tok hsp (nn _ _) (num_nodelim _ _) (fun b hb => by cases hb; rfl),
      isDelim_tok c32 k1 k2 (fun b hb => by cases hb; rfl), isDelim_tok c32 (nn _ _) (num_nodelim _ _) (by simp), show tokenLoop [] [] = [] from rfl]
    exact result_order2 d hd c hc hh hs hy a3 a4 a5 a6 (splitTime_num _ _) (splitDay_num (num1_len (by omega) (by omega))) m3 m4 m5 (splitYear_num (by omega) (by omega))
  · unfold cookieDate
    have e : rfc850 d c = [] ++ (dayName weekdayNames d ++ ([44, 32] ++ (num 2 d.d ++ ([45] ++ (monthName d ++ ([45] ++ (num 2 (d.y % 100) ++ ([32] ++ (clockText c ++ ([32] ++ ([71, 77, 84] ++ []))))))))))) := by
      simp [rfc850, Http.gmt]
    rw [e, isDelim_tok hd0 b1 b2 (fun b hb => by cases hb; rfl), isDelim_tok c44 (nn _ _) (num_nodelim _ _) (fun b hb => by cases hb; rfl), isDelim_tok c45 m1 m2 (fun b hb => by cases hb; rfl),
      isDelim_tok c45 (nn _ _) (num_nodelim _ _) (fun b hb => by cases hb; rfl), isDelim_tok c32 k1 k2 (fun b hb => by cases hb; rfl), isDelim_tok c32 (by decide) (by decide) (by simp),
      show tokenLoop [] [] = [] from rfl]
    exact result_order1 d hd c hc hh hs (by omega) b3 b4 b5 b6 (splitTime_num _ _) (splitDay_num hday2) m3 m5 (splitTime_num _ _) (splitYear_num2 hy1 hy2)

/-- The hypotheses are met, and other dates are read as well. -/
example : cookieDate ("Wed, 09 Jun 2021 10:18:14 GMT".toList.map Char.toNat) = some (timePoint ⟨2021, 6, 9⟩ ⟨10, 18, 14⟩ .utc) ∧
    cookieDate ("10:18:14x 9th/2021 JUNE".toList.map Char.toNat) = some (timePoint ⟨2021, 6, 9⟩ ⟨10, 18, 14⟩ .utc) ∧
    cookieDate ("30 Feb 2021 10:18:14".toList.map Char.toNat) = none := by decide +kernel

end Verif.Cookie
