import Verif.Sql.Expr
/-!
# The grammar of SQL expressions is unambiguous

A parser that reads the tokens from left to right is defined only to show that a text has at most one reading.
-/
namespace Verif.Sql
open Verif.OData

/-- What waits on the stack of the parser. -/
inductive Frame where
  | bin (a : Ast) (o : BOp)
  | lp
  | fn (m : Method)
  | fn2 (m : Method) (a : Ast)

/-- Close the operators on the stack with precedence at least `n`. -/
def reduceTo (n : Nat) : List Frame → Ast → List Frame × Ast
  | .bin b o :: st, a => if n ≤ o.lvl then reduceTo n st (.bin o b a) else (.bin b o :: st, a)
  | st, a => (st, a)

/-- The parser: the stack, the operand that was just read, and the rest of the tokens. -/
def parse : List Frame → Option Ast → List Tok → Option Ast
  | _, none, [] => none
  | st, none, .col c :: ts => parse st (some (.col c)) ts
  | st, none, .val v :: ts => parse st (some (.val v)) ts
  | st, none, .pct :: ts => parse st (some .pct) ts
  | st, none, .lp :: ts => parse (.lp :: st) none ts
  | st, none, .fopen m :: ts => parse (.fn m :: st) none ts
  | _, none, _ :: _ => none
  | st, some a, [] => match reduceTo 0 st a with | ([], a) => some a | _ => none
  | st, some a, .op o :: ts => parse (.bin (reduceTo o.lvl st a).2 o :: (reduceTo o.lvl st a).1) none ts
  | st, some a, .rp :: ts => match reduceTo 0 st a with | (.lp :: st, a) => parse st (some a) ts | _ => none
  | st, some a, .fsep m :: ts =>
    match reduceTo 0 st a with
    | (.fn k :: st, a) => if k = m then parse (.fn2 m a :: st) none ts else none
    | _ => none
  | st, some a, .fclose m :: ts =>
    match reduceTo 0 st a with
    | (.fn k :: st, a) => if k = m then parse st (some (.fn1 m a)) ts else none
    | (.fn2 k b :: st, a) => if k = m then parse st (some (.fn2 m b a)) ts else none
    | _ => none
  | _, some _, _ :: _ => none

/-- The operator on top of the stack has precedence less than `n`. -/
def TopLt (n : Nat) : List Frame → Prop
  | .bin _ o :: _ => o.lvl < n
  | _ => True

theorem reduceTo_top {n : Nat} {st : List Frame} (a : Ast) (h : TopLt n st) : reduceTo n st a = (st, a) := by
  cases st with
  | nil => rfl
  | cons f st =>
    cases f with
    | bin b o => rw [reduceTo, if_neg (by simp only [TopLt] at h; omega)]
    | lp => rfl
    | fn m => rfl
    | fn2 m b => rfl

theorem reduceTo_reduceTo {m n : Nat} (h : m ≤ n) : ∀ (st : List Frame) (a : Ast),
    reduceTo m (reduceTo n st a).1 (reduceTo n st a).2 = reduceTo m st a
  | [], a => rfl
  | .lp :: st, a => rfl
  | .fn k :: st, a => rfl
  | .fn2 k b :: st, a => rfl
  | .bin b o :: st, a => by
    by_cases ho : n ≤ o.lvl
    · rw [reduceTo, if_pos ho, reduceTo_reduceTo h st, reduceTo, if_pos (by omega)]
    · rw [reduceTo, if_neg ho]

theorem TopLt.mono {m n : Nat} {st : List Frame} (h : TopLt m st) (hmn : m ≤ n) : TopLt n st := by
  cases st with
  | nil => trivial
  | cons f st => cases f with
    | bin b o => simp only [TopLt] at *; omega
    | lp => trivial
    | fn m => trivial
    | fn2 m b => trivial

theorem parse_derives {n : Nat} {ts : List Tok} {a : Ast} (h : Derives n ts a) :
    ∀ (st : List Frame) (rest : List Tok), TopLt n st →
      ∃ st' a', parse st none (ts ++ rest) = parse st' (some a') rest ∧ reduceTo n st' a' = (st, a) := by
  induction h with
  | col c => intro st rest ht; exact ⟨st, .col c, rfl, reduceTo_top _ ht⟩
  | val v => intro st rest ht; exact ⟨st, .val v, rfl, reduceTo_top _ ht⟩
  | pct => intro st rest ht; exact ⟨st, .pct, rfl, reduceTo_top _ ht⟩
  | @paren n ts a _ ih =>
    intro st rest ht
    obtain ⟨st', a', h1, h2⟩ := ih (.lp :: st) (.rp :: rest) trivial
    refine ⟨st, a, ?_, reduceTo_top _ ht⟩
    have : (Tok.lp :: ts ++ [Tok.rp]) ++ rest = Tok.lp :: (ts ++ Tok.rp :: rest) := by simp
    rw [this, parse, h1, parse, h2]
  | @fn1 n m ts a _ ih =>
    intro st rest ht
    obtain ⟨st', a', h1, h2⟩ := ih (.fn m :: st) (.fclose m :: rest) trivial
    refine ⟨st, .fn1 m a, ?_, reduceTo_top _ ht⟩
    have : (Tok.fopen m :: ts ++ [Tok.fclose m]) ++ rest = Tok.fopen m :: (ts ++ Tok.fclose m :: rest) := by simp
    rw [this, parse, h1, parse, h2]
    simp
  | @fn2 n m ts us a b _ _ ih1 ih2 =>
    intro st rest ht
    obtain ⟨st', a', h1, h2⟩ := ih1 (.fn m :: st) (.fsep m :: (us ++ .fclose m :: rest)) trivial
    obtain ⟨st'', b', h3, h4⟩ := ih2 (.fn2 m a :: st) (.fclose m :: rest) trivial
    refine ⟨st, .fn2 m a b, ?_, reduceTo_top _ ht⟩
    have : (Tok.fopen m :: ts ++ Tok.fsep m :: us ++ [Tok.fclose m]) ++ rest
        = Tok.fopen m :: (ts ++ Tok.fsep m :: (us ++ Tok.fclose m :: rest)) := by simp
    rw [this, parse, h1, parse, h2]
    simp only [↓reduceIte]
    rw [h3, parse, h4]
    simp
  | @bin n ts us a b o hn _ _ ih1 ih2 =>
    intro st rest ht
    obtain ⟨st1, a1, h1, h2⟩ := ih1 st (.op o :: (us ++ rest)) (ht.mono hn)
    obtain ⟨st2, b2, h3, h4⟩ := ih2 (.bin a o :: st) rest (Nat.lt_succ_self _)
    refine ⟨st2, b2, ?_, ?_⟩
    · have : (ts ++ Tok.op o :: us) ++ rest = ts ++ Tok.op o :: (us ++ rest) := by simp
      rw [this, h1, parse, h2, h3]
    · rw [← reduceTo_reduceTo (Nat.le_succ_of_le hn) st2 b2, h4]
      show reduceTo n (Frame.bin a o :: st) b = _
      rw [reduceTo, if_pos hn, reduceTo_top _ ht]

theorem parse_eq {ts : List Tok} {a : Ast} (h : Derives 0 ts a) : parse [] none ts = some a := by
  obtain ⟨st, a', h1, h2⟩ := parse_derives h [] [] trivial
  rw [List.append_nil] at h1
  rw [h1, parse, h2]

/-- A text has at most one reading. -/
theorem derives_unique {ts : List Tok} {a b : Ast} (h : Derives 0 ts a) (h' : Derives 0 ts b) : a = b := by
  have := parse_eq h
  rw [parse_eq h'] at this
  exact (Option.some.inj this).symm

theorem Derives.mono {n : Nat} {ts : List Tok} {a : Ast} (h : Derives n ts a) : ∀ m, m ≤ n → Derives m ts a := by
  intro m hm
  cases h with
  | col c => exact .col c
  | val v => exact .val v
  | pct => exact .pct
  | paren h => exact .paren h
  | fn1 h => exact .fn1 h
  | fn2 h h' => exact .fn2 h h'
  | bin o ho h h' => exact .bin o (by omega) h h'

end Verif.Sql
