import Verif.Parser.Model
/-! # Lemmas about BasicParser -/
namespace Verif.Parser
open Verif.Text

/-- The parser took exactly the text `t` off the front of the remaining source. -/
structure Took (s s' : P) (t : List Nat) : Prop where
  src : s'.src = s.src
  last : s'.last = s.last
  pos : s'.pos = s.pos + t.length
  rest : s.src.drop s.pos = t ++ s.src.drop (s.pos + t.length)

/-- Specification: the longest run of characters satisfying `cs`, at most `limit` long. -/
def run (cs : Nat → Bool) (limit : Option Nat) (text : List Nat) : List Nat :=
  match limit with
  | none => text.takeWhile cs
  | some n => (text.take n).takeWhile cs

theorem slice_prefix {src : List Nat} {i n : Nat} {m : List Nat} (h : slice src i (i + n) = m) (hn : n = m.length) :
    src.drop i = m ++ src.drop (i + m.length) := by
  subst hn
  have : slice src i (i + m.length) = (src.drop i).take m.length := by simp [slice]
  rw [this] at h
  conv => lhs; rw [← List.take_append_drop m.length (src.drop i)]
  rw [h, List.drop_drop]

theorem slice_eq_iff (src : List Nat) (i : Nat) (m : List Nat) :
    slice src i (i + m.length) = m ↔ m <+: src.drop i := by
  have : slice src i (i + m.length) = (src.drop i).take m.length := by simp [slice]
  rw [this]
  constructor
  · intro h; rw [← h]; exact List.take_prefix _ _
  · intro h; exact (List.prefix_iff_eq_take.1 h).symm

theorem char_isSome (s : P) : s.char.isSome = true ↔ s.pos < s.src.length := by
  simp [P.char]

theorem parseOne_spec (s : P) (cs : Nat → Bool) :
    (∃ c, s.parseOne cs = (some c, s.next) ∧ cs c = true ∧
      s.src.drop s.pos = c :: s.src.drop (s.pos + 1)) ∨
    (s.parseOne cs = (none, s) ∧ (s.src.drop s.pos).takeWhile cs = []) := by
  unfold P.parseOne P.char
  cases hc : s.src[s.pos]? with
  | none =>
    right
    refine ⟨rfl, ?_⟩
    rw [List.drop_of_length_le (List.getElem?_eq_none_iff.1 hc)]; rfl
  | some c =>
    obtain ⟨hl, he⟩ := List.getElem?_eq_some_iff.1 hc
    have hd : s.src.drop s.pos = c :: s.src.drop (s.pos + 1) := by
      rw [List.drop_eq_getElem_cons hl, he]
    by_cases h : cs c = true
    · left; exact ⟨c, by simp [h], h, hd⟩
    · right
      refine ⟨by simp [h], ?_⟩
      rw [hd, List.takeWhile_cons, if_neg h]

theorem runLoop_spec (cs : Nat → Bool) : ∀ (fuel : Nat) (s : P) (left : Option Nat) (acc : List Nat),
    (s.src.drop s.pos).length < fuel →
    runLoop cs fuel s left acc =
      (acc ++ run cs left (s.src.drop s.pos),
        s.setpos (s.pos + (run cs left (s.src.drop s.pos)).length)) := by
  intro fuel
  induction fuel with
  | zero => intro s left acc h; omega
  | succ fuel ih =>
    intro s left acc h
    rw [runLoop]
    by_cases hl : left = some 0
    · rw [if_pos hl]; subst hl; simp [run, P.setpos]
    · rw [if_neg hl]
      rcases parseOne_spec s cs with ⟨c, h1, h2, h3⟩ | ⟨h1, h2⟩
      · rw [h1]
        dsimp only
        have hlen : (s.next.src.drop s.next.pos).length < fuel := by
          simp only [P.next]
          rw [h3] at h; simp only [List.length_cons] at h; omega
        rw [ih _ _ _ hlen]
        have hrun : run cs left (s.src.drop s.pos) =
            c :: run cs (left.map (· - 1)) (s.src.drop (s.pos + 1)) := by
          rw [h3]
          cases left with
          | none => simp [run, h2]
          | some n =>
            cases n with
            | zero => exact absurd rfl hl
            | succ n => simp [run, h2]
        rw [hrun]
        simp only [P.next, P.setpos, List.append_assoc, List.singleton_append, List.length_cons]
        rw [show s.pos + 1 + (run cs (left.map (· - 1)) (s.src.drop (s.pos + 1))).length =
          s.pos + ((run cs (left.map (· - 1)) (s.src.drop (s.pos + 1))).length + 1) by omega]
      · rw [h1]
        dsimp only
        have hrun : run cs left (s.src.drop s.pos) = [] := by
          cases left with
          | none => exact h2
          | some n =>
            unfold run
            cases hd : s.src.drop s.pos with
            | nil => simp
            | cons c t =>
              rw [hd, List.takeWhile_cons] at h2
              by_cases hc : cs c = true
              · rw [if_pos hc] at h2; simp at h2
              · cases n with
                | zero => simp
                | succ n => simp [hc]
        rw [hrun]; simp [P.setpos]

theorem run_prefix (cs : Nat → Bool) (limit : Option Nat) (text : List Nat) :
    run cs limit text <+: text := by
  cases limit with
  | none => exact List.takeWhile_prefix _
  | some n => exact (List.takeWhile_prefix _).trans (List.take_prefix _ _)

theorem run_all (cs : Nat → Bool) (limit : Option Nat) (text : List Nat) :
    ∀ c ∈ run cs limit text, cs c = true := by
  intro c hc
  cases limit with
  | none => exact List.all_eq_true.1 List.all_takeWhile c hc
  | some n => exact List.all_eq_true.1 List.all_takeWhile c hc

theorem run_length_le (cs : Nat → Bool) (n : Nat) (text : List Nat) :
    (run cs (some n) text).length ≤ n := by
  unfold run
  have h1 := (List.takeWhile_prefix (l := text.take n) cs).length_le
  have h2 : (text.take n).length ≤ n := by simp; omega
  exact Nat.le_trans h1 h2

theorem took_of_prefix {s : P} {t : List Nat} (h : t <+: s.src.drop s.pos) :
    Took s (s.setpos (s.pos + t.length)) t := by
  refine ⟨rfl, rfl, rfl, ?_⟩
  obtain ⟨r, hr⟩ := h
  have : s.src.drop (s.pos + t.length) = r := by
    rw [← List.drop_drop, ← hr]; simp
  rw [this, hr]

theorem parseRun_eq (cs : Nat → Bool) (s : P) (min : Int) (max : Option Int) :
    s.parseRun cs min max =
      if min < 0 ∨ (∃ m ∈ max, min > m) then (.error .value, s)
      else
        let r := run cs (max.map Int.toNat) (s.src.drop s.pos)
        if (r.length : Int) < min then (.ok none, s) else (.ok (some r), s.setpos (s.pos + r.length)) := by
  unfold P.parseRun
  have hl : (s.src.drop s.pos).length < s.src.length + 1 := by simp; omega
  rw [runLoop_spec cs _ s _ [] hl]
  simp only [List.nil_append]
  rfl

theorem takeWhile_append_stop {p : Nat → Bool} {a b : List Nat} (ha : ∀ c ∈ a, p c = true)
    (hb : ∀ c, b.head? = some c → p c = false) : (a ++ b).takeWhile p = a := by
  induction a with
  | nil =>
    cases b with
    | nil => rfl
    | cons c t => rw [List.nil_append, List.takeWhile_cons, if_neg]; simp [hb c rfl]
  | cons x a ih =>
    rw [List.cons_append, List.takeWhile_cons, if_pos (ha x (by simp)),
      ih (fun c hc => ha c (by simp [hc]))]

theorem parseInteger_eq (s : P) (min max md : Option Int) :
    s.parseInteger min max md =
      if min.getD 0 < 0 ∨ (∃ m ∈ max, m < min.getD 0) then (.error .value, s)
      else if ∃ m ∈ md, (1 : Int) > m then (.error .value, s)
      else
        let r := run isDigit (md.map Int.toNat) (s.src.drop s.pos)
        if r = [] then (.ok none, s)
        else if (decVal r : Int) < min.getD 0 ∨ (∃ m ∈ max, (decVal r : Int) > m) then (.ok none, s)
        else (.ok (some (decVal r)), s.setpos (s.pos + r.length)) := by
  unfold P.parseInteger P.parseDigits
  dsimp only
  rw [parseRun_eq]
  by_cases h0 : min.getD 0 < 0 ∨ (∃ m ∈ max, m < min.getD 0)
  · rw [if_pos h0, if_pos h0]
  rw [if_neg h0, if_neg h0]
  by_cases h1 : ∃ m ∈ md, (1 : Int) > m
  · rw [if_pos (Or.inr h1), if_pos h1]
  rw [if_neg (by rintro (h | h); · omega
                 · exact h1 h), if_neg h1]
  dsimp only
  by_cases h2 : run isDigit (md.map Int.toNat) (s.src.drop s.pos) = []
  · rw [if_pos h2, h2, if_pos (by simp)]
  · have : ¬ (((run isDigit (md.map Int.toNat) (s.src.drop s.pos)).length : Int) < 1) := by
      have := List.length_pos_iff.2 h2; omega
    rw [if_neg h2, if_neg this]
    rfl

theorem findFrom_spec (m : List Nat) : ∀ (rest : List Nat) (k : Nat),
    match findFrom rest m k with
    | some j => k ≤ j ∧ j ≤ k + rest.length ∧ m <+: rest.drop (j - k) ∧
        ∀ i, k ≤ i → i < j → ¬ m <+: rest.drop (i - k)
    | none => ∀ i, k ≤ i → i ≤ k + rest.length → ¬ m <+: rest.drop (i - k) := by
  intro rest
  induction rest with
  | nil =>
    intro k
    unfold findFrom
    by_cases hm : m.isPrefixOf [] = true
    · rw [if_pos hm]
      refine ⟨Nat.le_refl _, by simp, by simpa using List.isPrefixOf_iff_prefix.1 hm, ?_⟩
      intro i h1 h2; omega
    · rw [if_neg hm]
      intro i _ _ hp
      apply hm
      rw [List.isPrefixOf_iff_prefix]; simpa using hp
  | cons x rest ih =>
    intro k
    unfold findFrom
    by_cases hm : m.isPrefixOf (x :: rest) = true
    · rw [if_pos hm]
      refine ⟨Nat.le_refl _, by simp, by simpa using List.isPrefixOf_iff_prefix.1 hm, ?_⟩
      intro i h1 h2; omega
    · rw [if_neg hm]
      have h0 : ¬ m <+: x :: rest := fun hp => hm (List.isPrefixOf_iff_prefix.2 hp)
      have := ih (k + 1)
      revert this
      simp only
      split
      · rename_i j hj
        rintro ⟨h1, h2, h3, h4⟩
        refine ⟨by omega, by simp; omega, ?_, ?_⟩
        · rw [show j - k = (j - (k + 1)) + 1 by omega, List.drop_succ_cons]; exact h3
        · intro i hi1 hi2
          by_cases hik : i = k
          · subst hik; simpa using h0
          · rw [show i - k = (i - (k + 1)) + 1 by omega, List.drop_succ_cons]
            exact h4 i (by omega) hi2
      · intro h i hi1 hi2
        by_cases hik : i = k
        · subst hik; simpa using h0
        · rw [show i - k = (i - (k + 1)) + 1 by omega, List.drop_succ_cons]
          simp at hi2
          exact h i (by omega) (by omega)

end Verif.Parser
