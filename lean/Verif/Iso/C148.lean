import Verif.Iso.Duration
import Mathlib.Data.List.Basic
/-!
# C148: theorems about durations
-/
namespace Verif.Iso.Dur
open Verif.Text

/-! ## Specification -/

/-- Digits, and perhaps a decimal sign and digits. -/
structure Part where
  ds : List Nat
  fr : Option (Nat × List Nat)

/-- All digits, and at least one; the decimal sign is a comma or a point. -/
def Part.ok (p : Part) : Prop :=
  p.ds ≠ [] ∧ (∀ c ∈ p.ds, isDigit c = true) ∧ ∀ x ∈ p.fr, (x.1 = 46 ∨ x.1 = 44) ∧ x.2 ≠ [] ∧ ∀ c ∈ x.2, isDigit c = true

def Part.text (p : Part) : List Nat := p.ds ++ (match p.fr with | none => [] | some (c, fs) => c :: fs)

def Part.val (p : Part) : Num := match p.fr with | none => .int (decVal p.ds) | some (_, fs) => .frac (decVal p.ds) (decVal fs) fs.length

/-- The text of parts, each followed by its designator. -/
def textOf : List Nat → List (Option Part) → List Nat
  | c :: cs, p :: ps => (match p with | none => [] | some p => p.text ++ [c]) ++ textOf cs ps
  | _, _ => []

/-- The number of fractions. -/
def fracs : List (Option Part) → Nat
  | [] => 0
  | p :: ps => (match p with | some ⟨_, some _⟩ => 1 | _ => 0) + fracs ps

def AllOk (ps : List (Option Part)) : Prop := ∀ p, some p ∈ ps → p.ok

/-- The texts of durations: `PnW`, or `P` and up to three parts (with designators Y, M and D), and perhaps `T` and up to three parts (H, M
and S); at least one part, also after
a `T`; at most one fraction. -/
inductive Reads : List Nat → Duration → Prop
  | weeks {p : Part} : p.ok → Reads (80 :: p.text ++ [87]) (.weeks p.val)
  | date {ds : List (Option Part)} : ds.length = 3 → AllOk ds → fracs ds ≤ 1 → ds.any Option.isSome = true →
      Reads (80 :: textOf [89, 77, 68] ds) (.calendar (fill (ds.map (Option.map Part.val) ++ [none, none, none])))
  | time {ds ts : List (Option Part)} : ds.length = 3 → ts.length = 3 → AllOk ds → AllOk ts → fracs ds + fracs ts ≤ 1 →
      ts.any Option.isSome = true →
      Reads (80 :: textOf [89, 77, 68] ds ++ 84 :: textOf [72, 77, 83] ts) (.calendar (fill ((ds ++ ts).map (Option.map Part.val))))

/-! ## Proofs -/

theorem span_digits {ds r : List Nat} (h : ∀ c ∈ ds, isDigit c = true) (hr : ∀ c ∈ r.head?, isDigit c = false) :
    (ds ++ r).takeWhile isDigit = ds ∧ (ds ++ r).dropWhile isDigit = r := by
  induction ds with
  | nil =>
    cases r with
    | nil => simp
    | cons c r => have := hr c (by simp); simp [this]
  | cons c ds ih =>
    have h1 := h c (by simp)
    obtain ⟨h2, h3⟩ := ih fun x hx => h x (by simp [hx])
    simp [h1, h2, h3]

def isFrac (p : Part) : Bool := p.fr.isSome

theorem val_isInt (p : Part) : p.val.isInt = !isFrac p := by
  obtain ⟨ds, fr⟩ := p
  cases fr <;> rfl

theorem parseNum_none {a : Bool} {s : List Nat} (h : ∀ c ∈ s.head?, isDigit c = false) : parseNum a s = .ok (none, s) := by
  have := span_digits (ds := []) (r := s) (by simp) h
  simp only [List.nil_append] at this
  simp [parseNum, this.1]

/-- A part followed by something that is neither a digit nor a decimal sign. -/
theorem parseNum_part {a : Bool} {p : Part} (hp : p.ok) {c : Nat} {r : List Nat} (hc : isDigit c = false) (hc' : c ≠ 46 ∧ c ≠ 44)
    (ha : isFrac p = true → a = true) : parseNum a (p.text ++ c :: r) = .ok (some p.val, c :: r) := by
  obtain ⟨ds, fr⟩ := p
  obtain ⟨h1, h2, h3⟩ := hp
  dsimp only at h1 h2 h3
  cases fr with
  | none =>
    obtain ⟨e1, e2⟩ := span_digits (r := c :: r) h2 (by simp [hc])
    simp [parseNum, Part.text, Part.val, e1, e2, h1, hc'.1, hc'.2]
  | some x =>
    obtain ⟨d, fs⟩ := x
    obtain ⟨h4, h5, h6⟩ := h3 (d, fs) rfl
    dsimp only at h4 h5 h6
    have hd : isDigit d = false := by rcases h4 with rfl | rfl <;> rfl
    obtain ⟨e1, e2⟩ := span_digits (r := d :: (fs ++ c :: r)) h2 (by simp [hd])
    obtain ⟨e3, e4⟩ := span_digits (r := c :: r) h6 (by simp [hc])
    have hh : (d == 46 || d == 44) = true := by rcases h4 with rfl | rfl <;> rfl
    have := ha rfl
    subst this
    simp [parseNum, Part.text, Part.val, e1, e2, e3, e4, h1, h5, hh]

theorem parseNum_sound {a : Bool} {s r : List Nat} {v : Option Num} (h : parseNum a s = .ok (v, r)) :
    (v = none ∧ r = s) ∨ ∃ p : Part, p.ok ∧ v = some p.val ∧ s = p.text ++ r ∧ (isFrac p = true → a = true) := by
  have hdig : ∀ l : List Nat, ∀ c ∈ l.takeWhile isDigit, isDigit c = true := fun l c hc => by
    induction l with
    | nil => simp at hc
    | cons x l ih =>
      rw [List.takeWhile_cons] at hc
      split at hc
      · next hx =>
        rcases List.mem_cons.mp hc with rfl | hc
        · exact hx
        · exact ih hc
      · simp at hc
  unfold parseNum at h
  dsimp only at h
  split at h
  · cases h; exact .inl ⟨rfl, rfl⟩
  · next hne =>
    have hs : s = s.takeWhile isDigit ++ s.dropWhile isDigit := List.takeWhile_append_dropWhile.symm
    split at h
    · cases h
    · next c r' hr =>
      split at h
      · next hc =>
        split at h
        · cases h
        · next ha =>
          split at h
          · cases h
          · next hf =>
            cases h
            refine .inr ⟨⟨s.takeWhile isDigit, some (c, r'.takeWhile isDigit)⟩, ⟨?_, hdig s, ?_⟩, rfl, ?_, ?_⟩
            · simpa using hne
            · intro x hx
              cases hx
              refine ⟨by simpa using hc, by simpa using hf, hdig r'⟩
            · have : r' = r'.takeWhile isDigit ++ r'.dropWhile isDigit := List.takeWhile_append_dropWhile.symm
              conv_lhs => rw [hs, hr, this]
              simp [Part.text]
            · intro _; simpa using ha
      · cases h
        refine .inr ⟨⟨s.takeWhile isDigit, none⟩, ⟨?_, hdig s, by simp⟩, rfl, ?_, by simp [isFrac]⟩
        · simpa using hne
        · conv_lhs => rw [hs, hr]
          simp [Part.text]

def NotNum (s : List Nat) : Prop := ∀ c ∈ s.head?, isDigit c = false

def fracOf (p : Option Part) : Nat := match p with | some ⟨_, some _⟩ => 1 | _ => 0

theorem fracOf_some (p : Part) : fracOf (some p) = if isFrac p then 1 else 0 := by
  obtain ⟨ds, fr⟩ := p
  cases fr <;> rfl

theorem fracs_cons (p : Option Part) (ps : List (Option Part)) : fracs (p :: ps) = fracOf p + fracs ps := rfl

/-- Designators are letters. -/
def Letters (cs : List Nat) : Prop := cs.Nodup ∧ ∀ c ∈ cs, isDigit c = false ∧ c ≠ 46 ∧ c ≠ 44

theorem nextValue_none {a : Bool} {s : List Nat} (h : NotNum s) : nextValue a s = .ok (none, a, s) := by
  simp [nextValue, parseNum_none h]

theorem nextValue_part {a : Bool} {p : Part} (hp : p.ok) {c : Nat} {r : List Nat} (hc : isDigit c = false) (hc' : c ≠ 46 ∧ c ≠ 44)
    (ha : isFrac p = true → a = true) : nextValue a (p.text ++ c :: r) = .ok (some p.val, a && !isFrac p, c :: r) := by
  simp [nextValue, parseNum_part hp hc hc' ha, val_isInt]

/-- What is pending before a list of parts. -/
theorem next_textOf : ∀ (cs : List Nat) (ps : List (Option Part)) (a : Bool) (rest : List Nat), Letters cs → ps.length = cs.length → AllOk ps →
    NotNum rest → (fracs ps = 0 ∨ a = true) →
    ∃ v a' s, nextValue a (textOf cs ps ++ rest) = .ok (v, a', s) ∧ (v = none ∨ ∃ c ∈ cs, s.head? = some c) := by
  intro cs
  induction cs with
  | nil => intro ps a rest _ hl _ hr _; exact ⟨none, a, rest, by simpa [textOf] using nextValue_none hr, .inl rfl⟩
  | cons c cs ih =>
    intro ps a rest hL hl hok hr hf
    cases ps with
    | nil => simp at hl
    | cons p ps =>
      cases p with
      | none =>
        obtain ⟨v, a', s, h1, h2⟩ := ih ps a rest ⟨hL.1.of_cons, fun x hx => hL.2 x (by simp [hx])⟩ (by simpa using hl)
          (fun q hq => hok q (by simp [hq])) hr (by simpa [fracs] using hf)
        refine ⟨v, a', s, by simpa [textOf] using h1, ?_⟩
        rcases h2 with h2 | ⟨x, hx, h2⟩
        · exact .inl h2
        · exact .inr ⟨x, by simp [hx], h2⟩
      | some p =>
        obtain ⟨h1, h2⟩ := hL.2 c (by simp)
        refine ⟨some p.val, a && !isFrac p, c :: (textOf cs ps ++ rest), ?_, .inr ⟨c, by simp, by simp⟩⟩
        · have : textOf (c :: cs) (some p :: ps) ++ rest = p.text ++ c :: (textOf cs ps ++ rest) := by simp [textOf]
          rw [this]
          refine nextValue_part (hok p (by simp)) h1 h2 ?_
          intro hfr
          rcases hf with hf | hf
          · rw [fracs_cons, fracOf_some, hfr] at hf; simp at hf
          · exact hf

theorem section_complete : ∀ (cs : List Nat) (ps : List (Option Part)) (a : Bool) (rest : List Nat), Letters cs → ps.length = cs.length → AllOk ps →
    NotNum rest → fracs ps + (if a then 0 else 1) ≤ 1 →
    (match nextValue a (textOf cs ps ++ rest) with
      | .error e => Except.error e
      | .ok (v, a', s) => section_ cs v a' s) = .ok (ps.map (Option.map Part.val), none, decide (fracs ps + (if a then 0 else 1) = 0), rest) := by
  intro cs
  induction cs with
  | nil =>
    intro ps a rest _ hl _ hr hf
    have : ps = [] := by simpa using hl
    subst this
    rw [show textOf [] [] ++ rest = rest from rfl, nextValue_none hr]
    cases a <;> simp [section_, fracs]
  | cons c cs ih =>
    intro ps a rest hL hl hok hr hf
    have hL' : Letters cs := ⟨hL.1.of_cons, fun x hx => hL.2 x (by simp [hx])⟩
    cases ps with
    | nil => simp at hl
    | cons p ps =>
      have hl' : ps.length = cs.length := by simpa using hl
      have hok' : AllOk ps := fun q hq => hok q (by simp [hq])
      cases p with
      | none =>
        have hfz : fracs (none :: ps) = fracs ps := by simp [fracs]
        rw [hfz] at hf ⊢
        have hx := ih ps a rest hL' hl' hok' hr hf
        obtain ⟨v, a', s, h1, h2⟩ := next_textOf cs ps a rest hL' hl' hok' hr (by cases a <;> simp at hf ⊢; omega)
        rw [show textOf (c :: cs) (none :: ps) = textOf cs ps from rfl]
        rw [h1] at hx ⊢
        dsimp only at hx ⊢
        have hat : atChar v c s = false := by
          rcases h2 with rfl | ⟨x, hx, h2⟩
          · rfl
          · have : c ≠ x := by rintro rfl; exact (List.nodup_cons.mp hL.1).1 hx
            simp [atChar, h2, Ne.symm this]
        cases cs with
        | nil =>
          simp only [section_] at hx ⊢
          rw [hat]
          have : ps = [] := by simpa using hl'
          subst this
          simp only [List.map_nil, Except.ok.injEq, Prod.mk.injEq, true_and] at hx
          obtain ⟨rfl, rfl, rfl⟩ := hx
          simp
        | cons c' cs =>
          rw [section_, hat]
          simp only [Bool.false_eq_true, if_false]
          rw [hx]
          rfl
      | some p =>
        obtain ⟨h1, h2⟩ := hL.2 c (by simp)
        have e : textOf (c :: cs) (some p :: ps) ++ rest = p.text ++ c :: (textOf cs ps ++ rest) := by simp [textOf]
        rw [e]
        rw [fracs_cons, fracOf_some] at hf ⊢
        have ha : isFrac p = true → a = true := by
          intro hfr
          rw [hfr] at hf
          cases a <;> simp at hf ⊢
        rw [nextValue_part (hok p (by simp)) h1 h2 ha]
        dsimp only
        have hat : atChar (some p.val) c (c :: (textOf cs ps ++ rest)) = true := by simp [atChar]
        have hcount : (if (a && !isFrac p) = true then 0 else 1) = (if isFrac p then 1 else 0) + (if a then 0 else 1) := by
          cases a <;> cases hp : isFrac p <;> simp_all
        cases cs with
        | nil =>
          have : ps = [] := by simpa using hl'
          subst this
          rw [section_, hat]
          simp only [if_true, List.map_cons, List.map_nil, Option.map_some, List.tail_cons]
          have : textOf [] [] ++ rest = rest := rfl
          rw [this]
          simp only [fracs]
          cases a <;> cases hp : isFrac p <;> simp_all
        | cons c' cs =>
          rw [section_, hat]
          simp only [if_true, List.tail_cons]
          have hx := ih ps (a && !isFrac p) rest hL' hl' hok' hr (by rw [hcount]; omega)
          obtain ⟨v, a', s, h3, h4⟩ := next_textOf (c' :: cs) ps (a && !isFrac p) rest hL' hl' hok' hr (by
            by_cases hz : fracs ps = 0
            · exact .inl hz
            · right
              cases a <;> cases hp : isFrac p <;> simp [hp] at hf ⊢ <;> omega)
          rw [h3] at hx ⊢
          dsimp only at hx ⊢
          rw [hx, hcount]
          simp only [List.map_cons, Option.map_some]
          rw [show fracs ps + ((if isFrac p then 1 else 0) + (if a then 0 else 1)) = (if isFrac p then 1 else 0) + fracs ps + (if a then 0 else 1) from by omega]

theorem letters_date : Letters dateDes := ⟨by decide, by decide⟩
theorem letters_time : Letters timeDes := ⟨by decide, by decide⟩

theorem any_map_isSome (ps : List (Option Part)) : (ps.map (Option.map Part.val)).any Option.isSome = ps.any Option.isSome := by
  rw [List.any_map]
  congr 1
  funext p
  cases p <;> rfl

/-- The first value is not followed by `W`. -/
theorem no_week {v : Option Num} {s : List Nat} {cs : List Nat} (hcs : 87 ∉ cs) (h : v = none ∨ ∃ c ∈ cs, s.head? = some c) : atChar v 87 s = false := by
  rcases h with rfl | ⟨c, hc, h⟩
  · rfl
  · have : c ≠ 87 := by rintro rfl; exact hcs hc
    simp [atChar, h, this]

theorem des_date : [89, 77, 68] = dateDes := rfl
theorem des_time : [72, 77, 83] = timeDes := rfl

/-- Every text of the grammar, followed by anything that cannot be taken for more of it, is read. -/
theorem parse_complete {t : List Nat} {d : Duration} (h : Reads t d) {rest : List Nat} (hr : NotNum rest) (hT : rest.head? ≠ some 84) :
    parseDuration (t ++ rest) = .ok (d, rest) := by
  cases h with
  | @weeks p hp =>
    have e : (80 :: p.text ++ [87]) ++ rest = 80 :: (p.text ++ 87 :: rest) := by simp
    rw [e]
    simp only [parseDuration, List.head?_cons, beq_self_eq_true, if_true, List.tail_cons]
    rw [nextValue_part hp (by decide) (by decide) (fun _ => rfl)]
    simp [atChar]
  | @date ds hl hok hf hany =>
    rw [des_date, List.cons_append]
    simp only [parseDuration, List.head?_cons, beq_self_eq_true, if_true, List.tail_cons]
    have h1 := section_complete dateDes ds true rest letters_date hl hok hr (by simpa using hf)
    obtain ⟨v, a', s, h2, h3⟩ := next_textOf dateDes ds true rest letters_date hl hok hr (.inr rfl)
    rw [h2] at h1 ⊢
    dsimp only at h1 ⊢
    rw [no_week (by decide) h3, h1]
    simp only [afterDate, Option.isSome_none, Bool.false_eq_true, if_false, any_map_isSome, hany, if_true]
    rw [if_neg (by simpa using hT)]
  | @time ds ts hl hl' hok hok' hf hany =>
    rw [des_date, des_time]
    have e : (80 :: textOf dateDes ds ++ 84 :: textOf timeDes ts) ++ rest = 80 :: (textOf dateDes ds ++ 84 :: (textOf timeDes ts ++ rest)) := by simp
    rw [e]
    have hn : NotNum (84 :: (textOf timeDes ts ++ rest)) := by simp [NotNum, isDigit]
    simp only [parseDuration, List.head?_cons, beq_self_eq_true, if_true, List.tail_cons]
    have h1 := section_complete dateDes ds true _ letters_date hl hok hn (by simp; omega)
    obtain ⟨v, a', s, h2, h3⟩ := next_textOf dateDes ds true _ letters_date hl hok hn (.inr rfl)
    rw [h2] at h1 ⊢
    dsimp only at h1 ⊢
    rw [no_week (by decide) h3, h1]
    simp only [Bool.false_eq_true, if_false, afterDate, Option.isSome_none, List.head?_cons, beq_self_eq_true, if_true, List.tail_cons]
    have h4 := section_complete timeDes ts (decide (fracs ds + 0 = 0)) rest letters_time hl' hok' hr (by
      by_cases hz : fracs ds = 0 <;> simp [hz] <;> omega)
    simp only [Nat.add_zero] at h4 ⊢
    split at h4
    · cases h4
    · next v a s h5 =>
      rw [h5]
      dsimp only
      rw [h4]
      simp only [Option.isSome_none, Bool.false_eq_true, if_false, any_map_isSome, hany, if_true, List.map_append]

theorem nextValue_sound {a a' : Bool} {s r : List Nat} {v : Option Num} (h : nextValue a s = .ok (v, a', r)) :
    ∃ q : Option Part, (∀ p ∈ q, p.ok) ∧ v = q.map Part.val ∧ s = (match q with | none => [] | some p => p.text) ++ r ∧
      (a = true → a' = decide (fracOf q = 0)) ∧ (a = false → a' = false ∧ fracOf q = 0) := by
  unfold nextValue at h
  split at h
  · cases h
  · next w t hw =>
    cases h
    rcases parseNum_sound hw with ⟨rfl, rfl⟩ | ⟨p, hp, rfl, rfl, hf⟩
    · exact ⟨none, by simp, rfl, rfl, by simp [fracOf], by simp [fracOf]⟩
    · refine ⟨some p, by simpa using hp, rfl, rfl, ?_, ?_⟩
      · rintro rfl
        rw [fracOf_some]
        dsimp only
        rw [val_isInt]
        cases isFrac p <;> rfl
      · rintro rfl
        have : isFrac p = false := by
          cases h : isFrac p
          · rfl
          · exact absurd (hf h) (by simp)
        simp [fracOf_some, this]

/-- The text of the pending part. -/
def ptext (q : Option Part) : List Nat := match q with | none => [] | some p => p.text

theorem section_sound : ∀ (cs : List Nat) (q : Option Part) (a : Bool) (s : List Nat) (vs : List (Option Num)) (v' : Option Num) (a' : Bool) (s' : List Nat),
    (∀ p ∈ q, p.ok) → section_ cs (q.map Part.val) a s = .ok (vs, v', a', s') → ∀ k, (a = decide (k = 0)) → k ≤ 1 →
    ∃ (ps : List (Option Part)) (q' : Option Part) (k' : Nat), ps.length = cs.length ∧ AllOk ps ∧ (∀ p ∈ q', p.ok) ∧ vs = ps.map (Option.map Part.val) ∧
      v' = q'.map Part.val ∧ ptext q ++ s = textOf cs ps ++ (ptext q' ++ s') ∧ a' = decide (k' = 0) ∧ k' ≤ 1 ∧ k' + fracOf q = k + fracs ps + fracOf q' := by
  intro cs
  induction cs with
  | nil =>
    intro q a s vs v' a' s' hq h k hk hk1
    rw [section_] at h
    cases h
    exact ⟨[], q, k, rfl, by simp [AllOk], hq, rfl, rfl, rfl, hk, hk1, by simp [fracs]⟩
  | cons c cs ih =>
    intro q a s vs v' a' s' hq h k hk hk1
    have hat : atChar (q.map Part.val) c s = true → ∃ p r, q = some p ∧ s = c :: r := by
      intro h
      cases q with
      | none => simp [atChar] at h
      | some p =>
        cases s with
        | nil => simp [atChar] at h
        | cons x r => simp [atChar] at h; exact ⟨p, r, rfl, by rw [h]⟩
    cases cs with
    | nil =>
      rw [section_] at h
      split at h
      · next hc =>
        obtain ⟨p, r, rfl, rfl⟩ := hat hc
        cases h
        refine ⟨[some p], none, k, rfl, ?_, by simp, rfl, rfl, by simp [ptext, textOf], hk, hk1, ?_⟩
        · intro x hx; simp at hx; subst hx; exact hq x rfl
        · simp only [fracs_cons, fracs, fracOf]; omega
      · cases h
        exact ⟨[none], q, k, rfl, by simp [AllOk], hq, rfl, rfl, by simp [textOf], hk, hk1, by simp [fracs]⟩
    | cons c' cs =>
      rw [section_] at h
      split at h
      · next hc =>
        obtain ⟨p, r, rfl, rfl⟩ := hat hc
        split at h
        · cases h
        · next v1 a1 s1 h1 =>
          split at h
          · cases h
          · next vs' x h2 =>
            cases h
            obtain ⟨q1, hq1, rfl, h3, h4, h5⟩ := nextValue_sound h1
            obtain ⟨ps, q', k', e1, e2, e3, e4, e5, e6, e7, e8, e9⟩ := ih q1 a1 s1 _ _ _ _ hq1 h2 (k + fracOf q1) (by
              cases ha : a
              · obtain ⟨h6, h7⟩ := h5 ha
                rw [h6, h7, Nat.add_zero, ← hk, ha]
              · have : k = 0 := by rw [ha] at hk; exact of_decide_eq_true hk.symm
                rw [h4 ha, this, Nat.zero_add]) (by
              cases ha : a
              · rw [(h5 ha).2]; omega
              · have : k = 0 := by rw [ha] at hk; exact of_decide_eq_true hk.symm
                have : fracOf q1 ≤ 1 := by unfold fracOf; split <;> omega
                omega)
            refine ⟨some p :: ps, q', k', by simp [e1], ?_, e3, by simp [e4], e5, ?_, e7, e8, ?_⟩
            · intro y hy
              rcases List.mem_cons.mp hy with hy | hy
              · exact hq y hy.symm
              · exact e2 y hy
            · have h3' : r = ptext q1 ++ s1 := h3
              rw [h3', e6]
              simp [ptext, textOf]
            · rw [fracs_cons]
              omega
      · split at h
        · cases h
        · next vs' x h2 =>
          cases h
          obtain ⟨ps, q', k', e1, e2, e3, e4, e5, e6, e7, e8, e9⟩ := ih q a s _ _ _ _ hq h2 k hk hk1
          refine ⟨none :: ps, q', k', by simp [e1], ?_, e3, by simp [e4], e5, ?_, e7, e8, ?_⟩
          · intro y hy
            rcases List.mem_cons.mp hy with hy | hy
            · cases hy
            · exact e2 y hy
          · rw [e6]; simp [textOf]
          · rw [fracs_cons]; simp only [fracOf]; simp only [fracOf] at e9; omega

theorem parse_sound {s rest : List Nat} {d : Duration} (h : parseDuration s = .ok (d, rest)) : ∃ t, s = t ++ rest ∧ Reads t d := by
  unfold parseDuration at h
  split at h
  · next h80 =>
    obtain ⟨s, rfl⟩ : ∃ r, s = 80 :: r := by
      cases s with
      | nil => simp at h80
      | cons c r => simp at h80; exact ⟨r, by rw [h80]⟩
    rw [List.tail_cons] at h
    split at h
    · cases h
    · next v a s1 h1 =>
      obtain ⟨q, hq, rfl, h2, h3, -⟩ := nextValue_sound h1
      have ha := h3 rfl
      split at h
      · next hw =>
        cases q with
        | none => simp [atChar] at hw
        | some p =>
          cases s1 with
          | nil => simp [atChar] at hw
          | cons x r =>
            simp [atChar] at hw
            subst hw
            cases h
            refine ⟨_, ?_, .weeks (hq p rfl)⟩
            rw [h2]
            simp
      · split at h
        · cases h
        · next ds v2 a2 s2 h4 =>
          have hf1 : fracOf q ≤ 1 := by unfold fracOf; split <;> omega
          obtain ⟨ps, q', k', e1, e2, e3, e4, e5, e6, e7, e8, e9⟩ := section_sound dateDes q a s1 _ _ _ _ hq h4 (fracOf q) ha hf1
          unfold afterDate at h
          split at h
          · cases h
          · next hv =>
            have hq' : q' = none := by cases q' with | none => rfl | some p => simp [e5] at hv
            subst hq'
            have e6' : s = textOf dateDes ps ++ s2 := h2.trans e6
            split at h
            · next hT =>
              obtain ⟨s3, rfl⟩ : ∃ r, s2 = 84 :: r := by
                cases s2 with
                | nil => simp at hT
                | cons c r => simp at hT; exact ⟨r, by rw [hT]⟩
              rw [List.tail_cons] at h
              split at h
              · cases h
              · next v3 a3 s4 h5 =>
                obtain ⟨q3, hq3, rfl, g2, g3, g4⟩ := nextValue_sound h5
                split at h
                · cases h
                · next ts v4 a4 s5 h6 =>
                  obtain ⟨ps', q4, k4, f1, f2, f3, f4, f5, f6, f7, f8, f9⟩ := section_sound timeDes q3 a3 s4 _ _ _ _ hq3 h6 (k' + fracOf q3) (by
                    cases ha2 : a2
                    · obtain ⟨h7, h8⟩ := g4 ha2
                      rw [h7, h8, Nat.add_zero, ← e7, ha2]
                    · have : k' = 0 := by rw [ha2] at e7; exact of_decide_eq_true e7.symm
                      rw [g3 ha2, this, Nat.zero_add]) (by
                    cases ha2 : a2
                    · rw [(g4 ha2).2]; omega
                    · have : k' = 0 := by rw [ha2] at e7; exact of_decide_eq_true e7.symm
                      have : fracOf q3 ≤ 1 := by unfold fracOf; split <;> omega
                      omega)
                  split at h
                  · cases h
                  · next hv4 =>
                    have hq4 : q4 = none := by cases q4 with | none => rfl | some p => simp [f5] at hv4
                    subst hq4
                    split at h
                    · next hany =>
                      cases h
                      subst e4 f4
                      refine ⟨80 :: textOf dateDes ps ++ 84 :: textOf timeDes ps', ?_, ?_⟩
                      · have g2' : s3 = ptext q3 ++ s4 := g2
                        rw [e6', g2', f6]
                        simp [ptext]
                      · rw [← List.map_append]
                        refine .time e1 f1 e2 f2 ?_ (by rw [← any_map_isSome]; exact hany)
                        simp only [fracOf] at e9 f9
                        simp only [fracOf] at *
                        omega
                    · cases h
            · split at h
              · next hany =>
                cases h
                subst e4
                refine ⟨80 :: textOf dateDes ps, by rw [e6']; simp, .date e1 e2 ?_ (by rw [← any_map_isSome]; exact hany)⟩
                simp only [fracOf] at e9 e8
                simp only [fracOf] at *
                omega
              · cases h
  · cases h

/-! ## C148 -/

/-- **C148**: what is read, is a duration of the grammar at the beginning of the text. -/
theorem C148_sound {s rest : List Nat} {d : Duration} (h : parseDuration s = .ok (d, rest)) : ∃ t, s = t ++ rest ∧ Reads t d := parse_sound h

/-- **C148**: a text is read to its end exactly if it is one of the grammar, and means what the grammar says. -/
theorem C148_exact (s : List Nat) (d : Duration) : parseDuration s = .ok (d, []) ↔ Reads s d := by
  constructor
  · intro h
    obtain ⟨t, h1, h2⟩ := parse_sound h
    rw [List.append_nil] at h1
    rw [h1]; exact h2
  · intro h
    have := parse_complete h (rest := []) (by simp [NotNum]) (by simp)
    rwa [List.append_nil] at this

/-! ## Writing -/

/-- A duration with a given precision: values up to it, of which all but the last are whole. -/
def shaped (is : List Nat) (v : Num) : Duration :=
  .calendar (is.map (fun n => some (.int n)) ++ some v :: List.replicate (5 - is.length) none)

/-- Equality of values. -/
def Same : Num → Num → Prop
  | .int a, .int b => a = b
  | .frac n f k, .frac n' f' k' => n = n' ∧ f * 10 ^ k' = f' * 10 ^ k
  | _, _ => False

/-- The part that is written for a value. -/
def partOf (ndp : Int) : Num → Part
  | .int n => ⟨decStr n, none⟩
  | .frac n f k => if ndp = 0 then ⟨decStr n, none⟩
    else ⟨decStr n, some (if ndp > 0 then 44 else 46, decPad ndp.natAbs (fracDigits ndp.natAbs f k))⟩

theorem compText_some (ndp : Int) (des : Nat) (v : Num) : compText ndp des (some v) = (partOf ndp v).text ++ [des] := by
  cases v with
  | int n => simp [compText, partOf, Part.text]
  | frac n f k =>
    unfold compText partOf
    dsimp only
    by_cases h : ndp = 0
    · rw [if_pos h, if_pos h]
      simp only [Part.text, List.append_nil]
    · rw [if_neg h, if_neg h]
      rfl

theorem partOf_ok (ndp : Int) (v : Num) : (partOf ndp v).ok := by
  cases v with
  | int n => exact ⟨decStr_ne_nil n, decStr_isDigit n, by simp [partOf]⟩
  | frac n f k =>
    unfold partOf
    dsimp only
    by_cases hn : ndp = 0
    · rw [if_pos hn]; exact ⟨decStr_ne_nil n, decStr_isDigit n, by simp⟩
    · rw [if_neg hn]
      refine ⟨decStr_ne_nil n, decStr_isDigit n, ?_⟩
      intro x hx
      cases hx
      refine ⟨by dsimp only; split <;> simp, ?_, decPad_isDigit _ _⟩
      dsimp only
      unfold decPad
      intro h
      exact decStr_ne_nil _ (List.append_eq_nil_iff.mp h).2

theorem partOf_val_int (ndp : Int) (n : Nat) : (partOf ndp (.int n)).val = .int n := by simp [partOf, Part.val, decVal_decStr]

def Whole (z : Option Num) : Prop := z = none ∨ ∃ n, z = some (.int n)

theorem compTexts_whole (ndp : Int) : ∀ (des : List Nat) (zs : List (Option Num)), (∀ z ∈ zs, Whole z) →
    compTexts ndp des zs = textOf des (zs.map (Option.map (partOf ndp))) := by
  intro des
  induction des with
  | nil => intro zs _; simp [compTexts, textOf]
  | cons d des ih =>
    intro zs h
    cases zs with
    | nil => simp [compTexts, textOf]
    | cons z zs =>
      have := ih zs fun x hx => h x (by simp [hx])
      rcases h z (by simp) with rfl | ⟨n, rfl⟩
      · simp [compTexts, textOf, compText, this]
      · simp only [compTexts, compText_some, this, List.map_cons, Option.map_some, textOf]

theorem compTexts_last (ndp : Int) (v : Num) (k : Nat) : ∀ (des : List Nat) (zs : List (Option Num)), (∀ z ∈ zs, Whole z) →
    compTexts ndp des (zs ++ [some v]) = textOf des (zs.map (Option.map (partOf ndp)) ++ some (partOf ndp v) :: List.replicate k none) := by
  have hrep : ∀ (des : List Nat) (k : Nat), textOf des (List.replicate k none) = [] := by
    intro des
    induction des with
    | nil => intro k; simp [textOf]
    | cons d des ih => intro k; cases k with
      | zero => simp [textOf]
      | succ k => simp [textOf, List.replicate_succ, ih]
  intro des
  induction des with
  | nil => intro zs _; simp [compTexts, textOf]
  | cons d des ih =>
    intro zs h
    cases zs with
    | nil =>
      simp only [List.nil_append, List.map_nil, compTexts, textOf, compText_some, hrep]
    | cons z zs =>
      have := ih zs fun x hx => h x (by simp [hx])
      rcases h z (by simp) with rfl | ⟨n, rfl⟩
      · simp [compTexts, textOf, compText, this]
      · simp only [List.cons_append, compTexts, compText_some, this, List.map_cons, Option.map_some, textOf]

theorem compTexts_ne (ndp : Int) (v : Num) : ∀ (des : List Nat) (zs : List (Option Num)), (∀ z ∈ zs, Whole z) → zs.length < des.length →
    compTexts ndp des (zs ++ [some v]) ≠ [] := by
  intro des
  induction des with
  | nil => intro zs _ h; simp at h
  | cons d des ih =>
    intro zs h hl
    cases zs with
    | nil => simp [compTexts, compText_some]
    | cons z zs =>
      have := ih zs (fun x hx => h x (by simp [hx])) (by simpa using hl)
      rcases h z (by simp) with rfl | ⟨n, rfl⟩
      · simpa [compTexts, compText] using this
      · simp [compTexts, compText_some]

/-- The components after truncation: leading zeros are left out, and filled in again. -/
theorem trunc_shape (tz : Bool) (is : List Nat) (v : Num) : ∃ zs : List (Option Num),
    (if tz then truncZeros (is.map (fun n => some (.int n)) ++ [some v]) else is.map (fun n => some (.int n)) ++ [some v]) = zs ++ [some v] ∧
    zs.length = is.length ∧ (∀ z ∈ zs, Whole z) ∧
    ∀ v' k, fill (zs ++ some v' :: List.replicate k none) = is.map (fun n => some (.int n)) ++ some v' :: List.replicate k none := by
  have hnone : ∀ k, fill (List.replicate k none) = List.replicate k none := by
    intro k
    induction k with
    | zero => rfl
    | succ k ih =>
      rw [List.replicate_succ, fill, ih]
      simp
  have hplain : ∀ is : List Nat, ∀ v' k, fill (is.map (fun n => some (.int n)) ++ some v' :: List.replicate k none) =
      is.map (fun n => some (.int n)) ++ some v' :: List.replicate k none := by
    intro is v' k
    induction is with
    | nil => simp [fill, hnone]
    | cons n is ih => simp [fill, ih]
  have hint : ∀ is : List Nat, ∀ z ∈ is.map (fun n => some (Num.int n)), Whole z := by
    intro is z hz
    obtain ⟨n, -, rfl⟩ := List.mem_map.mp hz
    exact .inr ⟨n, rfl⟩
  cases tz with
  | false => exact ⟨_, rfl, by simp, hint is, hplain is⟩
  | true =>
    simp only [if_true]
    induction is with
    | nil => exact ⟨[], by simp [truncZeros], rfl, by simp, hplain []⟩
    | cons n is ih =>
      by_cases hn : n = 0
      · subst hn
        obtain ⟨zs, h1, h2, h3, h4⟩ := ih
        refine ⟨none :: zs, ?_, by simp [h2], ?_, ?_⟩
        · rw [List.map_cons, List.cons_append, truncZeros, h1]
          · simp
          · simp
        · intro z hz
          rcases List.mem_cons.mp hz with rfl | hz
          · exact .inl rfl
          · exact h3 z hz
        · intro v' k
          rw [List.cons_append, fill, h4]
          simp
      · refine ⟨(n :: is).map (fun n => some (.int n)), ?_, by simp, hint _, hplain _⟩
        rw [List.map_cons, List.cons_append, truncZeros]
        · simp [Num.isZero, hn]
        · simp

theorem dropNone_shaped (is : List Nat) (v : Num) (k : Nat) :
    dropNone (is.map (fun n => some (.int n)) ++ some v :: List.replicate k none) = is.map (fun n => some (.int n)) ++ [some v] := by
  unfold dropNone
  rw [List.reverse_append, List.reverse_cons, List.reverse_replicate, List.append_assoc]
  have : ∀ k (l : List (Option Num)), (List.replicate k none ++ ([some v] ++ l)).dropWhile Option.isNone = [some v] ++ l := by
    intro k l
    induction k with
    | zero => simp
    | succ k ih => rw [List.replicate_succ, List.cons_append, List.dropWhile_cons_of_pos (by rfl), ih]
  rw [this]
  simp

theorem fracs_whole (ndp : Int) {zs : List (Option Num)} (h : ∀ z ∈ zs, Whole z) (l : List (Option Part)) :
    fracs (zs.map (Option.map (partOf ndp)) ++ l) = fracs l := by
  induction zs with
  | nil => rfl
  | cons z zs ih =>
    have := ih fun x hx => h x (by simp [hx])
    rw [List.map_cons, List.cons_append, fracs_cons, this]
    rcases h z (by simp) with rfl | ⟨n, rfl⟩
    · simp [fracOf]
    · simp [fracOf, partOf]

theorem fracs_none (k : Nat) : fracs (List.replicate k none) = 0 := by
  induction k with
  | zero => rfl
  | succ k ih => rw [List.replicate_succ, fracs_cons, ih]; rfl

theorem map_val_whole (ndp : Int) {zs : List (Option Num)} (h : ∀ z ∈ zs, Whole z) :
    (zs.map (Option.map (partOf ndp))).map (Option.map Part.val) = zs := by
  induction zs with
  | nil => rfl
  | cons z zs ih =>
    have := ih fun x hx => h x (by simp [hx])
    rw [List.map_cons, List.map_cons, this]
    rcases h z (by simp) with rfl | ⟨n, rfl⟩
    · rfl
    · simp [partOf_val_int]

theorem allOk_parts (ndp : Int) (zs : List (Option Num)) : AllOk (zs.map (Option.map (partOf ndp))) := by
  intro p hp
  obtain ⟨z, -, hz⟩ := List.mem_map.mp hp
  cases z with
  | none => cases hz
  | some v => cases hz; exact partOf_ok ndp v

theorem allOk_append {a b : List (Option Part)} (ha : AllOk a) (hb : AllOk b) : AllOk (a ++ b) := by
  intro p hp
  rcases List.mem_append.mp hp with h | h
  · exact ha p h
  · exact hb p h

theorem allOk_tail (ndp : Int) (v : Num) (k : Nat) : AllOk (some (partOf ndp v) :: List.replicate k none) := by
  intro p hp
  rcases List.mem_cons.mp hp with h | h
  · cases h; exact partOf_ok ndp v
  · exact absurd (List.eq_of_mem_replicate h) (by simp)

/-- What is written is the text of a duration with the same values, the last of them as written. -/
theorem getString_reads (tz : Bool) (ndp : Int) (is : List Nat) (v : Num) (hl : is.length ≤ 5) :
    ∃ t, getString tz ndp (shaped is v) = .ok t ∧ Reads t (shaped is (partOf ndp v).val) := by
  obtain ⟨zs, h1, h2, h3, h4⟩ := trunc_shape tz is v
  have hf : fracs [some (partOf ndp v)] ≤ 1 := by
    simp only [fracs]
    split <;> simp
  have hne : ¬ (dropNone (is.map (fun n => some (.int n)) ++ some v :: List.replicate (5 - is.length) none)).isEmpty = true := by
    rw [dropNone_shaped]; simp
  unfold shaped getString
  dsimp only
  rw [if_neg hne, dropNone_shaped, h1]
  rw [← h2] at hl ⊢
  by_cases hz : zs.length ≤ 2
  · have ht : (zs ++ [some v]).take 3 = zs ++ [some v] := List.take_of_length_le (by simp; omega)
    have hd : (zs ++ [some v]).drop 3 = [] := List.drop_of_length_le (by simp; omega)
    rw [ht, hd]
    refine ⟨_, rfl, ?_⟩
    have e : compTexts (if (zs ++ [some v]).any isFloat = true then (ndp.natAbs : Int) else ndp) timeDes [] = [] := by
      simp [compTexts, timeDes]
    rw [e, compTexts_last ndp v (2 - zs.length) dateDes zs h3]
    have := Reads.date (ds := zs.map (Option.map (partOf ndp)) ++ some (partOf ndp v) :: List.replicate (2 - zs.length) none)
      (by simp; omega) (allOk_append (allOk_parts ndp zs) (allOk_tail ndp v _)) (by
        rw [fracs_whole ndp h3, fracs_cons, fracs_none]
        exact hf) (by simp)
    rw [List.map_append, map_val_whole ndp h3, List.map_cons, List.map_replicate, Option.map_none, List.append_assoc, List.cons_append] at this
    have e3 : List.replicate (2 - zs.length) (none : Option Num) ++ [none, none, none] = List.replicate (5 - zs.length) none := by
      have : [none, none, none] = List.replicate 3 (none : Option Num) := rfl
      rw [this, List.replicate_append_replicate]
      congr 1
      omega
    rw [e3, Option.map_some, h4] at this
    simpa [h2, dateDes, timeDes] using this
  · have ht : (zs ++ [some v]).take 3 = zs.take 3 := by rw [List.take_append_of_le_length (by omega)]
    have hd : (zs ++ [some v]).drop 3 = zs.drop 3 ++ [some v] := by rw [List.drop_append_of_le_length (by omega)]
    have h3a : ∀ z ∈ zs.take 3, Whole z := fun z hz => h3 z (List.mem_of_mem_take hz)
    have h3b : ∀ z ∈ zs.drop 3, Whole z := fun z hz => h3 z (List.mem_of_mem_drop hz)
    rw [ht, hd]
    have e : ((zs.take 3).any isFloat) = false := by
      rw [List.any_eq_false]
      intro z hz
      rcases h3a z hz with rfl | ⟨n, rfl⟩ <;> simp [isFloat]
    rw [e]
    simp only [Bool.false_eq_true, if_false]
    refine ⟨_, rfl, ?_⟩
    have hne2 := compTexts_ne ndp v timeDes (zs.drop 3) h3b (by simp [timeDes]; omega)
    rw [if_neg (by simpa using hne2), compTexts_last ndp v (5 - zs.length) timeDes (zs.drop 3) h3b, compTexts_whole ndp dateDes _ h3a]
    have := Reads.time (ds := (zs.take 3).map (Option.map (partOf ndp)))
      (ts := (zs.drop 3).map (Option.map (partOf ndp)) ++ some (partOf ndp v) :: List.replicate (5 - zs.length) none)
      (by simp; omega) (by simp; omega) (allOk_parts ndp _) (allOk_append (allOk_parts ndp _) (allOk_tail ndp v _)) (by
        rw [fracs_whole ndp h3b, fracs_cons, fracs_none]
        have := fracs_whole ndp h3a []
        rw [List.append_nil] at this
        rw [this]
        simpa [fracs, fracOf] using hf) (by simp)
    rw [← List.append_assoc, ← List.map_append, List.take_append_drop, List.map_append, map_val_whole ndp h3, List.map_cons, List.map_replicate,
      Option.map_none, Option.map_some, h4] at this
    simpa [h2, dateDes, timeDes] using this

/-- **C148**: whole durations, of any precision, are read back as they were from what is written, with or without leading zeros. -/
theorem C148_round_trip (tz : Bool) (ndp : Int) (is : List Nat) (n : Nat) (hl : is.length ≤ 5) :
    ∃ t, getString tz ndp (shaped is (.int n)) = .ok t ∧ parseDuration t = .ok (shaped is (.int n), []) := by
  obtain ⟨t, h1, h2⟩ := getString_reads tz ndp is (.int n) hl
  rw [partOf_val_int] at h2
  exact ⟨t, h1, (C148_exact t _).mpr h2⟩

/-- **C148**: durations whose last value has a fraction are read back with the same value, if as many digits are asked for as the fraction
has, and no more than twelve. -/
theorem C148_round_trip_frac (tz : Bool) (ndp : Int) (is : List Nat) (n f k : Nat) (hl : is.length ≤ 5) (hf : f < 10 ^ k) (hk : k ≤ ndp.natAbs)
    (h0 : ndp ≠ 0) (h12 : ndp.natAbs ≤ 12) :
    ∃ t v, getString tz ndp (shaped is (.frac n f k)) = .ok t ∧ parseDuration t = .ok (shaped is v, []) ∧ Same (.frac n f k) v := by
  obtain ⟨t, h1, h2⟩ := getString_reads tz ndp is (.frac n f k) hl
  refine ⟨t, _, h1, (C148_exact t _).mpr h2, ?_⟩
  generalize hw : ndp.natAbs = w at *
  have hw0 : 0 < w := by omega
  obtain ⟨j, rfl⟩ : ∃ j, w = k + j := ⟨w - k, by omega⟩
  have hq : fracDigits (k + j) f k = f * 10 ^ j := by
    unfold fracDigits
    have hk0 : 0 < 10 ^ k := Nat.pos_of_ne_zero (by simp)
    have e1 : (f * 10 ^ 13 + 2 * 10 ^ k) * 10 ^ (k + j) = 10 ^ k * ((f * 10 ^ 13 + 2 * 10 ^ k) * 10 ^ j) := by rw [Nat.pow_add]; ac_rfl
    rw [e1, Nat.mul_div_mul_left _ _ hk0, Nat.add_mul]
    have e2 : f * 10 ^ 13 * 10 ^ j = 10 ^ 13 * (f * 10 ^ j) := by ac_rfl
    rw [e2, Nat.mul_add_div (by decide)]
    have : 2 * 10 ^ k * 10 ^ j < 10 ^ 13 := by
      rw [Nat.mul_assoc, ← Nat.pow_add]
      have : 10 ^ (k + j) ≤ 10 ^ 12 := Nat.pow_le_pow_right (by decide) h12
      omega
    rw [Nat.div_eq_of_lt this]
    rfl
  have hlt : f * 10 ^ j < 10 ^ (k + j) := by
    rw [Nat.pow_add]
    exact Nat.mul_lt_mul_of_pos_right hf (Nat.pos_of_ne_zero (by simp))
  unfold partOf
  dsimp only
  rw [if_neg h0, hw, hq]
  unfold Part.val
  dsimp only
  rw [decVal_decStr, decVal_decPad, decPad_length hlt hw0]
  refine ⟨rfl, ?_⟩
  rw [Nat.pow_add]
  ac_rfl

/-- **C148**: the durations of XML Schema: the same with a sign. -/
theorem C148_xsd_round_trip (neg : Bool) (is : List Nat) (n : Nat) (hl : is.length ≤ 5) :
    ∃ t, xsdToString (neg, shaped is (.int n)) = .ok t ∧ xsdOfString t = .ok (neg, shaped is (.int n)) := by
  obtain ⟨t, h1, h2⟩ := C148_round_trip false 0 is n hl
  cases neg with
  | true =>
    refine ⟨45 :: t, by simp [xsdToString, h1, Except.map], ?_⟩
    simp [xsdOfString, ofString, h2, Except.map]
  | false =>
    refine ⟨t, by simp [xsdToString, h1, Except.map], ?_⟩
    have h80 : t.head? = some 80 := by
      cases t with
      | nil => simp [parseDuration] at h2
      | cons c r =>
        by_cases hc : c = 80
        · rw [hc]; rfl
        · simp [parseDuration, hc] at h2
    cases t with
    | nil => simp at h80
    | cons c r =>
      have hc : c = 80 := by simpa using h80
      subst hc
      simp [xsdOfString, ofString, h2, Except.map]

/-- P36Y11M13DT10H5M0S, and without leading zeros PT5M0S. -/
example : getString false 0 (shaped [36, 11, 13, 10, 5] (.int 0)) =
    .ok [80, 51, 54, 89, 49, 49, 77, 49, 51, 68, 84, 49, 48, 72, 53, 77, 48, 83] := by decide +kernel
example : getString true 0 (shaped [0, 0, 0, 0, 5] (.int 0)) = .ok [80, 84, 53, 77, 48, 83] := by decide +kernel
example : parseDuration [80, 49, 44, 53, 89] = .ok (shaped [] (.frac 1 5 1), []) := by decide +kernel

/-! ## Violations -/

/-- **C148, violated**: `P1Y?` is a duration of one year; `P1.5Y2M` is accepted although only the last value may have a fraction; `P1` is a
TypeError and `P1.Y` an AttributeError. -/
theorem C148_lenient_violation : ofString [80, 49, 89, 63] = .ok (shaped [] (.int 1)) ∧
    ofString [80, 49, 46, 53, 89, 50, 77] = .ok (.calendar [some (.frac 1 5 1), some (.int 2), none, none, none, none]) ∧
    ofString [80, 49] = .error .type ∧ ofString [80, 49, 46, 89] = .error .attribute := by decide +kernel

/-- **C148, violated**: durations in weeks cannot be written; 1.9999999999999 seconds with three digits is written as 1.1000. -/
theorem C148_write_violation : (∀ w tz ndp, getString tz ndp (.weeks w) = .error .notImplemented) ∧
    getString true (-3) (shaped [0, 0, 0, 0, 0] (.frac 1 9999999999999 13)) = .ok [80, 84, 49, 46, 49, 48, 48, 48, 83] :=
  ⟨fun _ _ _ => rfl, by decide +kernel⟩

/-- **C148, violated**: in XML Schema -P1Y and P1Y are equal. -/
theorem C148_sign_violation : (do
    let x ← xsdOfString [45, 80, 49, 89]
    let y ← xsdOfString [80, 49, 89]
    pure (x.1, y.1, xsdEq x y)) = .ok (true, false, true) := by decide +kernel

end Verif.Iso.Dur
