import Verif.Xsd.RegexProps
/-!
# The grammar of XML Schema regular expressions and the parser (C158)
-/
namespace Verif.Xsd
open Verif.CharClass (Range Str Mem Canon maxunicode addClass addChar subtractClass negate classText pyAtom PyAtom)

/-! ### specification: regular expressions, as they are written and what they mean

After XML Schema Part 2, appendix F. -/

/-- A single character escape: the character after the backslash and the character it stands for. -/
def EscapeOf (c x : Nat) : Prop :=
  (c = 110 ∧ x = 10) ∨ (c = 114 ∧ x = 13) ∨ (c = 116 ∧ x = 9) ∨
    (x = c ∧ c ∈ [92, 124, 46, 45, 94, 63, 42, 43, 123, 125, 40, 41, 91, 93])

/-- A character as it is written in a class. -/
inductive Ch where
  | lit (c : Nat)
  | esc (c x : Nat)

def Ch.text : Ch → Str
  | .lit c => [c]
  | .esc c _ => [92, c]

def Ch.val : Ch → Nat
  | .lit c => c
  | .esc _ x => x

/-- In a class the backslash, the hyphen and the brackets have to be escaped. -/
def Ch.WF : Ch → Prop
  | .lit c => c ≤ maxunicode ∧ c ≠ 92 ∧ c ≠ 45 ∧ c ≠ 91 ∧ c ≠ 93
  | .esc c x => EscapeOf c x

/-- The names of the categories. -/
def categoryNames : List Str :=
  [[76], [77], [78], [80], [90], [83], [67],
   [76, 117], [76, 108], [76, 116], [76, 109], [76, 111], [77, 110], [77, 99], [77, 101], [78, 100], [78, 108], [78, 111],
   [80, 99], [80, 100], [80, 115], [80, 101], [80, 105], [80, 102], [80, 111], [90, 115], [90, 108], [90, 112],
   [83, 109], [83, 99], [83, 107], [83, 111], [67, 99], [67, 102], [67, 111], [67, 110]]

/-- Escapes that stand for a set of characters: `\s`, `\d`, ..., `\p{Lu}` and `\P{Lu}`, `\p{IsBasicLatin}` and
`\P{IsBasicLatin}`. -/
inductive Multi where
  | shorthand (c : Nat)
  | category (compl : Bool) (name : Str)
  | block (compl : Bool) (name : Str)

def Multi.text : Multi → Str
  | .shorthand c => [92, c]
  | .category compl name => [92, if compl then 80 else 112, 123] ++ name ++ [125]
  | .block compl name => [92, if compl then 80 else 112, 123, 73, 115] ++ name ++ [125]

def Multi.WF (U : Ucd) : Multi → Prop
  | .shorthand c => c ∈ [115, 83, 105, 73, 99, 67, 100, 68, 119, 87]
  | .category _ name => name ∈ categoryNames
  | .block _ name => (∀ c ∈ name, (97 ≤ c ∧ c ≤ 122) ∨ (65 ≤ c ∧ c ≤ 90) ∨ (48 ≤ c ∧ c ≤ 57) ∨ c = 45) ∧ ∃ rs, U.block name = some rs

/-- All characters but those of `S`. -/
def Other (S : Nat → Prop) (x : Nat) : Prop := x ≤ maxunicode ∧ ¬ S x

def Multi.Set (U : Ucd) : Multi → Nat → Prop
  | .shorthand 115 => fun x => x = 9 ∨ x = 10 ∨ x = 13 ∨ x = 32
  | .shorthand 83 => Other fun x => x = 9 ∨ x = 10 ∨ x = 13 ∨ x = 32
  | .shorthand 105 => fun x => Mem U.letter x ∨ x = 95 ∨ x = 58
  | .shorthand 73 => Other fun x => Mem U.letter x ∨ x = 95 ∨ x = 58
  | .shorthand 99 => fun x => Mem U.nameChar x
  | .shorthand 67 => Other fun x => Mem U.nameChar x
  | .shorthand 100 => fun x => Mem (U.cat [78, 100]) x
  | .shorthand 68 => Other fun x => Mem (U.cat [78, 100]) x
  | .shorthand 119 => Other fun x => Mem (U.cat [80]) x ∨ Mem (U.cat [90]) x ∨ Mem (U.cat [67]) x
  | .shorthand 87 => fun x => Mem (U.cat [80]) x ∨ Mem (U.cat [90]) x ∨ Mem (U.cat [67]) x
  | .shorthand _ => fun _ => False
  | .category false name => fun x => Mem (U.cat name) x
  | .category true name => Other fun x => Mem (U.cat name) x
  | .block false name => fun x => ∃ rs, U.block name = some rs ∧ Mem rs x
  | .block true name => Other fun x => ∃ rs, U.block name = some rs ∧ Mem rs x

/-- A part of a class. -/
inductive Item where
  | one (a : Ch)
  | range (a b : Ch)
  | multi (m : Multi)

def Item.text : Item → Str
  | .one a => a.text
  | .range a b => a.text ++ 45 :: b.text
  | .multi m => m.text

def Item.WF (U : Ucd) : Item → Prop
  | .one a => a.WF
  | .range a b => a.WF ∧ b.WF ∧ a.val ≤ b.val
  | .multi m => m.WF U

def Item.Set (U : Ucd) : Item → Nat → Prop
  | .one a => fun x => x = a.val
  | .range a b => fun x => a.val ≤ x ∧ x ≤ b.val
  | .multi m => m.Set U

/-- A group: the parts of a class, possibly after `^` and with a hyphen at the end. -/
structure Group where
  neg : Bool
  items : List Item
  dash : Bool

def Group.text (g : Group) : Str := (if g.neg then [94] else []) ++ (g.items.flatMap Item.text ++ if g.dash then [45] else [])

/-- There is at least one part, and a group that is not negative does not begin with `^`. -/
def Group.WF (U : Ucd) (g : Group) : Prop :=
  g.items ≠ [] ∧ (∀ i ∈ g.items, i.WF U) ∧ (g.neg = false → (g.items.flatMap Item.text).head? ≠ some 94)

def Group.Set (U : Ucd) (g : Group) : Nat → Prop :=
  if g.neg then Other fun x => (∃ i ∈ g.items, i.Set U x) ∨ (g.dash = true ∧ x = 45)
  else fun x => (∃ i ∈ g.items, i.Set U x) ∨ (g.dash = true ∧ x = 45)

/-- A class, possibly with subtraction: `[a-z-[aeiou]]`. -/
inductive Cls where
  | plain (g : Group)
  | minus (g : Group) (sub : Cls)

def Cls.text : Cls → Str
  | .plain g => 91 :: (g.text ++ [93])
  | .minus g sub => 91 :: (g.text ++ 45 :: (sub.text ++ [93]))

def Cls.WF (U : Ucd) : Cls → Prop
  | .plain g => g.WF U
  | .minus g sub => g.WF U ∧ sub.WF U

def Cls.Set (U : Ucd) : Cls → Nat → Prop
  | .plain g => g.Set U
  | .minus g sub => fun x => g.Set U x ∧ ¬ sub.Set U x

/-- A quantifier. -/
inductive Quant where
  | none
  | opt
  | star
  | plus
  | exact (ds : Str)
  | atLeast (ds : Str)
  | between (ds es : Str)

def Quant.text : Quant → Str
  | .none => []
  | .opt => [63]
  | .star => [42]
  | .plus => [43]
  | .exact ds => 123 :: (ds ++ [125])
  | .atLeast ds => 123 :: (ds ++ [44, 125])
  | .between ds es => 123 :: (ds ++ 44 :: (es ++ [125]))

/-- The number some decimal digits stand for. -/
def digitsValue (ds : Str) : Nat := ds.foldl (fun acc d => acc * 10 + (d - 48)) 0

def IsDigits (ds : Str) : Prop := ds ≠ [] ∧ ∀ d ∈ ds, 48 ≤ d ∧ d ≤ 57

def Quant.WF : Quant → Prop
  | .exact ds => IsDigits ds
  | .atLeast ds => IsDigits ds
  | .between ds es => IsDigits ds ∧ IsDigits es ∧ digitsValue ds ≤ digitsValue es
  | _ => True

/-- The numbers of repetitions a quantifier allows. -/
def Quant.Allows : Quant → Nat → Prop
  | .none => fun k => k = 1
  | .opt => fun k => k ≤ 1
  | .star => fun _ => True
  | .plus => fun k => 1 ≤ k
  | .exact ds => fun k => k = digitsValue ds
  | .atLeast ds => fun k => digitsValue ds ≤ k
  | .between ds es => fun k => digitsValue ds ≤ k ∧ k ≤ digitsValue es

/-- The kinds of expressions. -/
inductive Kind where
  | atom
  | branch
  | re

/-- Expressions: an atom is a character, an escape, `.`, a class or an expression in parentheses; a branch is a list of
atoms with quantifiers; an expression is a list of branches separated by `|`. -/
inductive Xre : Kind → Type where
  | char (c : Nat) : Xre .atom
  | esc (c x : Nat) : Xre .atom
  | dot : Xre .atom
  | multi (m : Multi) : Xre .atom
  | cls (k : Cls) : Xre .atom
  | group (e : Xre .re) : Xre .atom
  | nil : Xre .branch
  | cons (a : Xre .atom) (q : Quant) (b : Xre .branch) : Xre .branch
  | one (b : Xre .branch) : Xre .re
  | or (b : Xre .branch) (e : Xre .re) : Xre .re

/-- How an expression is written. -/
def Xre.text : {k : Kind} → Xre k → Str
  | _, .char c => [c]
  | _, .esc c _ => [92, c]
  | _, .dot => [46]
  | _, .multi m => m.text
  | _, .cls k => k.text
  | _, .group e => 40 :: (e.text ++ [41])
  | _, .nil => []
  | _, .cons a q b => a.text ++ (q.text ++ b.text)
  | _, .one b => b.text
  | _, .or b e => b.text ++ 124 :: e.text

def Xre.WF (U : Ucd) : {k : Kind} → Xre k → Prop
  | _, .char c => c ≤ maxunicode ∧ c ∉ [46, 92, 63, 42, 43, 123, 125, 40, 41, 91, 93, 124]
  | _, .esc c x => EscapeOf c x
  | _, .dot => True
  | _, .multi m => m.WF U
  | _, .cls k => k.WF U
  | _, .group e => e.WF U
  | _, .nil => True
  | _, .cons a q b => a.WF U ∧ q.WF ∧ b.WF U
  | _, .one b => b.WF U
  | _, .or b e => b.WF U ∧ e.WF U

/-- The texts an expression describes. -/
def Xre.Lang (U : Ucd) : {k : Kind} → Xre k → Str → Prop
  | _, .char c => fun w => w = [c]
  | _, .esc _ x => fun w => w = [x]
  | _, .dot => fun w => ∃ x, w = [x] ∧ x ≤ maxunicode ∧ x ≠ 10 ∧ x ≠ 13
  | _, .multi m => fun w => ∃ x, w = [x] ∧ m.Set U x
  | _, .cls k => fun w => ∃ x, w = [x] ∧ k.Set U x
  | _, .group e => e.Lang U
  | _, .nil => fun w => w = []
  | _, .cons a q b => fun w => ∃ (us : List Str) (v : Str), w = us.flatten ++ v ∧ (∀ u ∈ us, a.Lang U u) ∧ q.Allows us.length ∧ b.Lang U v
  | _, .one b => b.Lang U
  | _, .or b e => fun w => b.Lang U w ∨ e.Lang U w

/-- The two sets whose class Python does not understand (C156): all characters, all characters but the backslash. -/
def Usual (S : Nat → Prop) : Prop := (∃ x, x ≤ maxunicode ∧ ¬ S x) ∧ (S 92 ∨ ∃ x, x ≤ maxunicode ∧ x ≠ 92 ∧ ¬ S x)

/-- No class of the expression is one of the two. -/
def Xre.Usual (U : Ucd) : {k : Kind} → Xre k → Prop
  | _, .multi m => Xsd.Usual (m.Set U)
  | _, .cls k => Xsd.Usual (k.Set U)
  | _, .group e => e.Usual U
  | _, .cons a _ b => a.Usual U ∧ b.Usual U
  | _, .one b => b.Usual U
  | _, .or b e => b.Usual U ∧ e.Usual U
  | _, _ => True

/-- The tables are classes of characters. -/
def IsClass (rs : List Range) : Prop := Canon rs ∧ ∀ c, Mem rs c → c ≤ maxunicode

structure Ucd.OK (U : Ucd) : Prop where
  cat : ∀ n, IsClass (U.cat n)
  block : ∀ n rs, U.block n = some rs → IsClass rs
  letter : IsClass U.letter
  nameChar : IsClass U.nameChar

/-! ### classes -/

/-- `rs` is the class of the set `S`. -/
def Repr (rs : List Range) (S : Nat → Prop) : Prop := Canon rs ∧ (∀ c, Mem rs c → c ≤ maxunicode) ∧ ∀ c, Mem rs c ↔ S c

theorem IsClass.repr {rs : List Range} (h : IsClass rs) : Repr rs (Mem rs) := ⟨h.1, h.2, fun _ => Iff.rfl⟩

theorem Repr.congr {rs : List Range} {S T : Nat → Prop} (h : Repr rs S) (e : ∀ x, S x ↔ T x) : Repr rs T :=
  ⟨h.1, h.2.1, fun c => (h.2.2 c).trans (e c)⟩

theorem Repr.negate {rs : List Range} {S : Nat → Prop} (h : Repr rs S) : Repr (negate rs) (Other S) := by
  obtain ⟨h1, h2⟩ := Verif.CharClass.negate_spec h.1
  refine ⟨h1, fun c hc => ((h2 c).mp hc).1, fun c => ?_⟩
  rw [h2, h.2.2]; rfl

theorem Repr.addClass {rs qs : List Range} {S T : Nat → Prop} (h : Repr rs S) (h' : Repr qs T) : Repr (addClass rs qs) (fun x => S x ∨ T x) := by
  obtain ⟨h1, h2⟩ := Verif.CharClass.addClass_spec h.1 h'.1
  refine ⟨h1, fun c hc => ?_, fun c => ?_⟩
  · rcases (h2 c).mp hc with hh | hh
    · exact h.2.1 c hh
    · exact h'.2.1 c hh
  · rw [h2, h.2.2, h'.2.2]

theorem Repr.addChar {rs : List Range} {S : Nat → Prop} (h : Repr rs S) {x : Nat} (hx : x ≤ maxunicode) : Repr (addChar rs x) (fun y => S y ∨ y = x) := by
  obtain ⟨h1, h2⟩ := Verif.CharClass.addChar_spec h.1 x
  refine ⟨h1, fun c hc => ?_, fun c => ?_⟩
  · rcases (h2 c).mp hc with hh | hh
    · exact h.2.1 c hh
    · omega
  · rw [h2, h.2.2]

theorem Repr.subtract {rs qs : List Range} {S T : Nat → Prop} (h : Repr rs S) (h' : Repr qs T) : Repr (subtractClass rs qs) (fun x => S x ∧ ¬ T x) := by
  obtain ⟨h1, h2⟩ := Verif.CharClass.subtractClass_spec qs h'.1.1 h.1
  refine ⟨h1, fun c hc => ?_, fun c => ?_⟩
  · exact h.2.1 c ((h2 c).mp hc).1
  · rw [h2, h.2.2, h'.2.2]

theorem Repr.range {a b : Nat} (h : a ≤ b) (hb : b ≤ maxunicode) : Repr [(a, b)] (fun x => a ≤ x ∧ x ≤ b) := by
  have hm : ∀ c, Mem [(a, b)] c ↔ a ≤ c ∧ c ≤ b := by intro c; simp [Mem]
  refine ⟨⟨by simpa using h, by simp⟩, fun c hc => ?_, hm⟩
  have := (hm c).mp hc
  omega

theorem Repr.single {a : Nat} (hb : a ≤ maxunicode) : Repr [(a, a)] (fun x => x = a) :=
  (Repr.range (Nat.le_refl a) hb).congr fun x => by omega

theorem Repr.nil : Repr [] (fun _ => False) := ⟨by constructor <;> simp, by simp [Mem], by simp [Mem]⟩

theorem Repr.space : Repr [(9, 10), (13, 13), (32, 32)] (fun x => x = 9 ∨ x = 10 ∨ x = 13 ∨ x = 32) := by
  have hm : ∀ c, Mem [(9, 10), (13, 13), (32, 32)] c ↔ (c = 9 ∨ c = 10 ∨ c = 13 ∨ c = 32) := by
    intro c; simp [Mem]; omega
  refine ⟨by constructor <;> simp, fun c hc => ?_, hm⟩
  have := (hm c).mp hc
  have : maxunicode = 1114111 := by decide
  omega

theorem Repr.dot : Repr dotClass (fun x => x ≤ maxunicode ∧ x ≠ 10 ∧ x ≠ 13) := by
  have e : maxunicode = 1114111 := by decide
  have hm : ∀ c, Mem dotClass c ↔ (c ≤ maxunicode ∧ c ≠ 10 ∧ c ≠ 13) := by
    intro c; simp [Mem, dotClass]; omega
  refine ⟨?_, fun c hc => ((hm c).mp hc).1, hm⟩
  unfold dotClass
  constructor <;> simp <;> omega

/-! ### escapes -/

theorem escapeOf_single {c x : Nat} (h : EscapeOf c x) : singleEsc c = some x := by
  rcases h with ⟨rfl, rfl⟩ | ⟨rfl, rfl⟩ | ⟨rfl, rfl⟩ | ⟨rfl, h⟩
  · rfl
  · rfl
  · rfl
  · unfold singleEsc
    have : x ≠ 110 ∧ x ≠ 114 ∧ x ≠ 116 := by
      simp only [List.mem_cons, List.not_mem_nil, or_false] at h
      omega
    rw [if_neg this.1, if_neg this.2.1, if_neg this.2.2, if_pos h]

theorem escapeOf_le {c x : Nat} (h : EscapeOf c x) : x ≤ maxunicode := by
  have e : maxunicode = 1114111 := by decide
  rcases h with ⟨rfl, rfl⟩ | ⟨rfl, rfl⟩ | ⟨rfl, rfl⟩ | ⟨rfl, h⟩
  · omega
  · omega
  · omega
  · simp only [List.mem_cons, List.not_mem_nil, or_false] at h
    omega

theorem Ch.WF.le {a : Ch} (h : a.WF) : a.val ≤ maxunicode := by
  cases a with
  | lit c => exact h.1
  | esc c x => exact escapeOf_le h

theorem charOrEsc_of {a : Ch} (h : a.WF) (r : Str) : requireCharOrEsc (a.text ++ r) = some (a.val, r) := by
  cases a with
  | lit c =>
    obtain ⟨_, h1, h2, h3, h4⟩ := h
    simp [requireCharOrEsc, Ch.text, Ch.val, h1, h2, h3, h4]
  | esc c x =>
    simp [requireCharOrEsc, Ch.text, Ch.val, requireSingleCharEsc, escapeOf_single h]

theorem singleEsc_classEsc (U : Ucd) {c x : Nat} (h : EscapeOf c x) (r : Str) : requireCharClassEsc U (92 :: c :: r) = some ([(x, x)], r) := by
  have hc : c ≠ 112 ∧ c ≠ 80 ∧ multiEsc U c = none := by
    rcases h with ⟨rfl, rfl⟩ | ⟨rfl, rfl⟩ | ⟨rfl, rfl⟩ | ⟨rfl, h⟩
    · exact ⟨by decide, by decide, rfl⟩
    · exact ⟨by decide, by decide, rfl⟩
    · exact ⟨by decide, by decide, rfl⟩
    · simp only [List.mem_cons, List.not_mem_nil, or_false] at h
      refine ⟨by omega, by omega, ?_⟩
      unfold multiEsc
      repeat rw [if_neg (by omega)]
  have h1 : requireCatEsc U (92 :: c :: r) = none := by
    unfold requireCatEsc
    split
    · next heq => simp at heq; exact absurd heq.1 hc.1
    · rfl
  have h2 : requireComplEsc U (92 :: c :: r) = none := by
    unfold requireComplEsc
    split
    · next heq => simp at heq; exact absurd heq.1 hc.2.1
    · rfl
  unfold requireCharClassEsc
  rw [h1, h2]
  simp [requireMultiCharEsc, hc.2.2, requireSingleCharEsc, escapeOf_single h]

theorem isCategory_of (U : Ucd) {name : Str} (h : name ∈ categoryNames) (r : Str) : requireCharProp U (name ++ 125 :: r) = some (U.cat name, 125 :: r) := by
  unfold requireCharProp
  have : requireIsCategory U (name ++ 125 :: r) = some (U.cat name, 125 :: r) := by
    simp only [categoryNames, List.mem_cons, List.not_mem_nil, or_false] at h
    rcases h with rfl | rfl | rfl | rfl | rfl | rfl | rfl | rfl | rfl | rfl | rfl | rfl | rfl | rfl | rfl | rfl | rfl | rfl |
      rfl | rfl | rfl | rfl | rfl | rfl | rfl | rfl | rfl | rfl | rfl | rfl | rfl | rfl | rfl | rfl | rfl | rfl <;> rfl
  rw [this]

theorem isBlock_of (U : Ucd) {name : Str} (h : ∀ c ∈ name, (97 ≤ c ∧ c ≤ 122) ∨ (65 ≤ c ∧ c ≤ 90) ∨ (48 ≤ c ∧ c ≤ 57) ∨ c = 45)
    {rs : List Range} (hb : U.block name = some rs) (r : Str) :
    requireCharProp U (73 :: 115 :: (name ++ 125 :: r)) = some (rs, 125 :: r) := by
  have h0 : ∀ c ∈ name, isBlockChar c = true := by
    intro c hc
    have := h c hc
    simp only [isBlockChar, Bool.or_eq_true, Bool.and_eq_true, decide_eq_true_eq, beq_iff_eq]
    omega
  have h1 : (73 :: 115 :: (name ++ 125 :: r)).takeWhile isBlockChar = 73 :: 115 :: name := by
    have : (name ++ 125 :: r).takeWhile isBlockChar = name := by
      rw [List.takeWhile_append_of_pos h0, List.takeWhile_cons_of_neg (by decide), List.append_nil]
    rw [List.takeWhile_cons_of_pos (by decide), List.takeWhile_cons_of_pos (by decide), this]
  have h2 : (73 :: 115 :: (name ++ 125 :: r)).dropWhile isBlockChar = 125 :: r := by
    rw [List.dropWhile_cons_of_pos (by decide), List.dropWhile_cons_of_pos (by decide), List.dropWhile_append_of_pos h0,
      List.dropWhile_cons_of_neg (by decide)]
  unfold requireCharProp
  have h3 : requireIsCategory U (73 :: 115 :: (name ++ 125 :: r)) = none := rfl
  rw [h3]
  dsimp only
  unfold requireIsBlock
  rw [h1, h2]
  simp [hb]

theorem classEsc_shorthand {U : Ucd} (c : Nat) (rs : List Range) (h : multiEsc U c = some rs) (h1 : c ≠ 112) (h2 : c ≠ 80) (r : Str) :
    requireCharClassEsc U (92 :: c :: r) = some (rs, r) := by
  have e1 : requireCatEsc U (92 :: c :: r) = none := by
    unfold requireCatEsc
    split
    · next heq => simp at heq; exact absurd heq.1 h1
    · rfl
  have e2 : requireComplEsc U (92 :: c :: r) = none := by
    unfold requireComplEsc
    split
    · next heq => simp at heq; exact absurd heq.1 h2
    · rfl
  unfold requireCharClassEsc
  rw [e1, e2]
  simp [requireMultiCharEsc, h]

theorem multi_classEsc {U : Ucd} (hU : U.OK) {m : Multi} (h : m.WF U) (r : Str) :
    ∃ rs, requireCharClassEsc U (m.text ++ r) = some (rs, r) ∧ Repr rs (m.Set U) := by
  cases m with
  | shorthand c =>
    have h : c ∈ [115, 83, 105, 73, 99, 67, 100, 68, 119, 87] := h
    have e95 : 95 ≤ maxunicode := by decide
    have e58 : 58 ≤ maxunicode := by decide
    have hi := ((hU.letter.repr.addChar e95).addChar e58).congr (T := fun x => Mem U.letter x ∨ x = 95 ∨ x = 58) fun x => or_assoc
    have hw := (((hU.cat [80]).repr.addClass (hU.cat [90]).repr).addClass (hU.cat [67]).repr).congr
      (T := fun x => Mem (U.cat [80]) x ∨ Mem (U.cat [90]) x ∨ Mem (U.cat [67]) x) fun x => or_assoc
    simp only [List.mem_cons, List.not_mem_nil, or_false] at h
    rcases h with rfl | rfl | rfl | rfl | rfl | rfl | rfl | rfl | rfl | rfl
    · exact ⟨_, classEsc_shorthand 115 _ rfl (by decide) (by decide) r, Repr.space⟩
    · exact ⟨_, classEsc_shorthand 83 _ rfl (by decide) (by decide) r, Repr.space.negate⟩
    · exact ⟨_, classEsc_shorthand 105 _ rfl (by decide) (by decide) r, hi⟩
    · exact ⟨_, classEsc_shorthand 73 _ rfl (by decide) (by decide) r, hi.negate⟩
    · exact ⟨_, classEsc_shorthand 99 _ rfl (by decide) (by decide) r, hU.nameChar.repr⟩
    · exact ⟨_, classEsc_shorthand 67 _ rfl (by decide) (by decide) r, hU.nameChar.repr.negate⟩
    · exact ⟨_, classEsc_shorthand 100 _ rfl (by decide) (by decide) r, (hU.cat [78, 100]).repr⟩
    · exact ⟨_, classEsc_shorthand 68 _ rfl (by decide) (by decide) r, (hU.cat [78, 100]).repr.negate⟩
    · exact ⟨_, classEsc_shorthand 119 _ rfl (by decide) (by decide) r, hw.negate⟩
    · exact ⟨_, classEsc_shorthand 87 _ rfl (by decide) (by decide) r, hw⟩
  | category compl name =>
    have hp := isCategory_of U h r
    cases compl with
    | false =>
      refine ⟨U.cat name, ?_, (hU.cat name).repr⟩
      have e : (Multi.category false name).text ++ r = 92 :: 112 :: 123 :: (name ++ 125 :: r) := by simp [Multi.text]
      rw [e]
      simp [requireCharClassEsc, requireCatEsc, hp]
    | true =>
      refine ⟨negate (U.cat name), ?_, (hU.cat name).repr.negate⟩
      have e : (Multi.category true name).text ++ r = 92 :: 80 :: 123 :: (name ++ 125 :: r) := by simp [Multi.text]
      rw [e]
      simp [requireCharClassEsc, requireCatEsc, requireComplEsc, hp]
  | block compl name =>
    obtain ⟨h1, rs, hb⟩ := h
    have hp := isBlock_of U h1 hb r
    have hr : Repr rs (fun x => ∃ rs, U.block name = some rs ∧ Mem rs x) := (hU.block name rs hb).repr.congr fun x => by simp [hb]
    cases compl with
    | false =>
      refine ⟨rs, ?_, hr⟩
      have e : (Multi.block false name).text ++ r = 92 :: 112 :: 123 :: 73 :: 115 :: (name ++ 125 :: r) := by simp [Multi.text]
      rw [e]
      simp [requireCharClassEsc, requireCatEsc, hp]
    | true =>
      refine ⟨negate rs, ?_, hr.negate⟩
      have e : (Multi.block true name).text ++ r = 92 :: 80 :: 123 :: 73 :: 115 :: (name ++ 125 :: r) := by simp [Multi.text]
      rw [e]
      simp [requireCharClassEsc, requireCatEsc, requireComplEsc, hp]

/-! ### groups -/

/-- What may follow an item: not the hyphen of a range. -/
def After (s : Str) : Prop := s.head? ≠ some 45 ∨ s.tail.head? = some 45 ∨ s.tail.head? = some 91 ∨ s.tail.head? = some 93

theorem charOrEsc_none {s : Str} (h : s.head? = some 45 ∨ s.head? = some 91 ∨ s.head? = some 93) : requireCharOrEsc s = none := by
  cases s with
  | nil => simp at h
  | cons c r =>
    simp only [List.head?_cons, Option.some.injEq] at h
    rcases h with rfl | rfl | rfl <;> simp [requireCharOrEsc, requireSingleCharEsc]

theorem item_head {U : Ucd} {i : Item} (h : i.WF U) : ∃ c t, i.text = c :: t ∧ c ≠ 45 ∧ c ≠ 93 := by
  have hch : ∀ {a : Ch}, a.WF → ∃ c t, a.text = c :: t ∧ c ≠ 45 ∧ c ≠ 93 := by
    intro a ha
    cases a with
    | lit c => exact ⟨c, [], rfl, ha.2.2.1, ha.2.2.2.2⟩
    | esc c x => exact ⟨92, [c], rfl, by decide, by decide⟩
  cases i with
  | one a => exact hch h
  | range a b =>
    obtain ⟨c, t, e, h1⟩ := hch h.1
    exact ⟨c, t ++ 45 :: b.text, by simp [Item.text, e], h1⟩
  | multi m =>
    cases m with
    | shorthand c => exact ⟨92, [c], rfl, by decide, by decide⟩
    | category compl name => exact ⟨92, _, by simp [Item.text, Multi.text]; rfl, by decide, by decide⟩
    | block compl name => exact ⟨92, _, by simp [Item.text, Multi.text]; rfl, by decide, by decide⟩

/-- One step of the loop reads an item. -/
theorem item_step {U : Ucd} (hU : U.OK) {i : Item} (h : i.WF U) {s : Str} (hs : After s) (n : Nat) (got : Bool) (acc : List Range) :
    ∃ rs, Repr rs (i.Set U) ∧ posCharGroup U (n + 1) got acc (i.text ++ s) = posCharGroup U n true (addClass acc rs) s := by
  have hstep : ∀ t rs, (∃ c u, t = c :: u ∧ c ≠ 45) →
      (requireCharRange (t ++ s) = some (rs, s) ∨ (requireCharRange (t ++ s) = none ∧ requireCharClassEsc U (t ++ s) = some (rs, s))) →
      posCharGroup U (n + 1) got acc (t ++ s) = posCharGroup U n true (addClass acc rs) s := by
    rintro t rs ⟨c, u, rfl, hc⟩ ht
    rw [posCharGroup]
    have : (got && ((c :: u ++ s).head? == some 45)) = false := by simp [hc]
    rw [this]
    simp only [Bool.false_eq_true, if_false]
    rcases ht with ht | ⟨ht, ht'⟩
    · rw [ht]
    · rw [ht]; dsimp only; rw [ht']
  have hnr : ∀ {a : Ch}, a.WF → requireSeRange (a.text ++ s) = none := by
    intro a ha
    unfold requireSeRange
    rw [charOrEsc_of ha]
    split
    · next x r heq =>
      simp only [Option.some.injEq, Prod.mk.injEq] at heq
      obtain ⟨rfl, rfl⟩ := heq
      rcases hs with hs | hs
      · simp at hs
      · rw [charOrEsc_none (by simpa using hs)]
    · rfl
  obtain ⟨c, u, e, hc, _⟩ := item_head h
  cases i with
  | one a =>
    refine ⟨[(a.val, a.val)], Repr.single (Ch.WF.le h), hstep _ _ ⟨c, u, e, hc⟩ ?_⟩
    have hn := hnr (a := a) h
    cases a with
    | lit c =>
      left
      obtain ⟨_, h1, h2, h3, h4⟩ := h
      unfold requireCharRange
      simp only [Item.text]
      rw [hn]
      simp [Ch.text, Ch.val, h1, h3, h4]
    | esc c x =>
      right
      constructor
      · unfold requireCharRange
        simp only [Item.text]
        rw [hn]
        simp [Ch.text]
      · exact singleEsc_classEsc U h s
  | range a b =>
    obtain ⟨ha, hb, hab⟩ := h
    refine ⟨[(a.val, b.val)], Repr.range hab hb.le, hstep _ _ ⟨c, u, e, hc⟩ (.inl ?_)⟩
    unfold requireCharRange
    have : requireSeRange ((Item.range a b).text ++ s) = some ([(a.val, b.val)], s) := by
      unfold requireSeRange
      simp only [Item.text, List.append_assoc, List.cons_append]
      simp [charOrEsc_of ha, charOrEsc_of hb, Nat.not_lt.mpr hab]
    rw [this]
  | multi m =>
    obtain ⟨rs, h1, h2⟩ := multi_classEsc hU h s
    refine ⟨rs, h2, hstep _ _ ⟨c, u, e, hc⟩ (.inr ⟨?_, h1⟩)⟩
    have hk : ∃ k t, m.text = 92 :: k :: t ∧ singleEsc k = none := by
      cases m with
      | shorthand c =>
        refine ⟨c, [], rfl, ?_⟩
        have h : c ∈ [115, 83, 105, 73, 99, 67, 100, 68, 119, 87] := h
        simp only [List.mem_cons, List.not_mem_nil, or_false] at h
        rcases h with rfl | rfl | rfl | rfl | rfl | rfl | rfl | rfl | rfl | rfl <;> rfl
      | category compl name => exact ⟨if compl then 80 else 112, _, by simp [Multi.text]; rfl, by cases compl <;> rfl⟩
      | block compl name => exact ⟨if compl then 80 else 112, _, by simp [Multi.text]; rfl, by cases compl <;> rfl⟩
    obtain ⟨k, t, e, hk⟩ := hk
    simp only [Item.text]
    rw [e]
    simp [requireCharRange, requireSeRange, requireCharOrEsc, requireSingleCharEsc, hk]

/-- What follows a group: the end of the class or a subtraction. -/
def GroupEnd (s : Str) : Prop := s.head? = some 93 ∨ (s.head? = some 45 ∧ s.tail.head? = some 91)

theorem items_step {U : Ucd} (hU : U.OK) : ∀ (is : List Item), (∀ i ∈ is, i.WF U) → ∀ (s : Str), After s → ∀ (n : Nat) (got : Bool) (acc : List Range) (S : Nat → Prop),
    Repr acc S → ∃ acc', Repr acc' (fun x => S x ∨ ∃ i ∈ is, i.Set U x) ∧
      posCharGroup U (n + is.length) got acc (is.flatMap Item.text ++ s) = posCharGroup U n (got || !is.isEmpty) acc' s := by
  intro is
  induction is with
  | nil => intro _ s _ n got acc S h; exact ⟨acc, h.congr (by simp), by simp⟩
  | cons i is ih =>
    intro hw s hs n got acc S hS
    have hafter : After (is.flatMap Item.text ++ s) := by
      cases is with
      | nil => simpa using hs
      | cons j js =>
        obtain ⟨c, t, e, hc, _⟩ := item_head (hw j (by simp))
        left
        simp [e, hc]
    obtain ⟨rs, h1, h2⟩ := item_step hU (hw i (by simp)) hafter (n + is.length) got acc
    obtain ⟨acc', h3, h4⟩ := ih (fun j hj => hw j (by simp [hj])) s hs n true _ _ (hS.addClass h1)
    refine ⟨acc', h3.congr fun x => by simp [or_assoc], ?_⟩
    simp only [List.flatMap_cons, List.append_assoc, List.length_cons]
    rw [← Nat.add_assoc, h2, h4]
    simp

theorem posGroup {U : Ucd} (hU : U.OK) {g : Group} (hne : g.items ≠ []) (hw : ∀ i ∈ g.items, i.WF U) {s : Str} (hs : GroupEnd s) :
    ∃ rs, requirePosCharGroup U (g.items.flatMap Item.text ++ (if g.dash then [45] else []) ++ s) = some (rs, s) ∧
      Repr rs (fun x => (∃ i ∈ g.items, i.Set U x) ∨ (g.dash = true ∧ x = 45)) := by
  have hlen : ∀ (is : List Item), (∀ i ∈ is, i.WF U) → is.length ≤ (is.flatMap Item.text).length := by
    intro is
    induction is with
    | nil => simp
    | cons i is ih =>
      intro hw
      obtain ⟨c, t, e, _⟩ := item_head (hw i (by simp))
      have := ih fun j hj => hw j (by simp [hj])
      simp only [List.flatMap_cons, e, List.length_cons, List.length_append]
      omega
  have hafter : After ((if g.dash then [45] else []) ++ s) := by
    unfold After
    rcases hs with hs | ⟨hs, hs'⟩
    · cases g.dash with
      | true => right; simp [hs]
      | false => left; simp [hs]
    · cases g.dash with
      | true => right; left; simp [hs]
      | false => right; right; left; simpa using hs'
  unfold requirePosCharGroup
  obtain ⟨n, hn⟩ : ∃ n, (g.items.flatMap Item.text ++ (if g.dash then [45] else []) ++ s).length + 1 = (n + 1) + g.items.length := by
    refine ⟨(g.items.flatMap Item.text ++ (if g.dash then [45] else []) ++ s).length - g.items.length, ?_⟩
    have := hlen g.items hw
    simp only [List.length_append]
    omega
  rw [hn, List.append_assoc]
  obtain ⟨acc, h1, h2⟩ := items_step hU g.items hw _ hafter (n + 1) false [] _ Repr.nil
  rw [h2]
  have hg : (false || !g.items.isEmpty) = true := by simpa using hne
  rw [hg, posCharGroup]
  have e45 : 45 ≤ maxunicode := by decide
  cases hd : g.dash with
  | true =>
    refine ⟨addChar acc 45, ?_, (h1.addChar e45).congr fun x => by simp⟩
    rcases hs with hs | ⟨hs, hs'⟩
    · simp [hs]
    · simp [hs, hs']
  | false =>
    refine ⟨acc, ?_, h1.congr fun x => by simp⟩
    rcases hs with hs | ⟨hs, hs'⟩
    · cases s with
      | nil => simp at hs
      | cons c r =>
        simp only [List.head?_cons, Option.some.injEq] at hs
        subst hs
        simp [requireCharRange, requireSeRange, requireCharOrEsc, requireSingleCharEsc, requireCharClassEsc, requireCatEsc, requireComplEsc,
          requireMultiCharEsc]
    · simp [hs, hs']

theorem group_parse {U : Ucd} (hU : U.OK) {g : Group} (h : g.WF U) {s : Str} (hs : GroupEnd s) :
    ∃ rs, requireGroupBase U (g.text ++ s) = some (rs, s) ∧ Repr rs (g.Set U) := by
  obtain ⟨rs, h1, h2⟩ := posGroup hU h.1 h.2.1 hs
  unfold Group.text Group.Set
  cases hn : g.neg with
  | true =>
    refine ⟨negate rs, ?_, by simpa using h2.negate⟩
    simp only [if_true, List.cons_append, List.nil_append, requireGroupBase]
    rw [h1]
    rfl
  | false =>
    refine ⟨rs, ?_, by simpa using h2⟩
    simp only [Bool.false_eq_true, if_false, List.nil_append]
    unfold requireGroupBase
    have hh := h.2.2 hn
    split
    · next r heq =>
      exfalso
      obtain ⟨i, is, hi⟩ : ∃ i is, g.items = i :: is := by
        cases e : g.items with
        | nil => exact absurd e h.1
        | cons i is => exact ⟨i, is, rfl⟩
      obtain ⟨c, t, e, _⟩ := item_head (h.2.1 i (by simp [hi]))
      rw [hi] at heq hh
      simp only [List.flatMap_cons, e, List.cons_append, List.head?_cons, ne_eq, Option.some.injEq, List.cons.injEq] at heq hh
      exact hh heq.1
    · exact h1

theorem cls_head (k : Cls) : ∃ t, k.text = 91 :: t := by
  cases k with
  | plain g => exact ⟨_, rfl⟩
  | minus g sub => exact ⟨_, rfl⟩

theorem cls_parse {U : Ucd} (hU : U.OK) : ∀ {k : Cls}, k.WF U → ∀ (r : Str) (n : Nat), k.text.length ≤ n →
    ∃ rs, requireCharClassExpr U n (k.text ++ r) = some (rs, r) ∧ Repr rs (k.Set U) := by
  intro k
  induction k with
  | plain g =>
    intro h r n hn
    obtain ⟨rs, h1, h2⟩ := group_parse hU (g := g) h (s := 93 :: r) (.inl rfl)
    refine ⟨rs, ?_, h2⟩
    obtain ⟨n, rfl⟩ : ∃ j, n = j + 1 := ⟨n - 1, by simp [Cls.text] at hn; omega⟩
    have e : (Cls.plain g).text ++ r = 91 :: (g.text ++ 93 :: r) := by simp [Cls.text]
    rw [e, requireCharClassExpr, h1]
    simp
  | minus g sub ih =>
    intro h r n hn
    obtain ⟨t, ht⟩ := cls_head sub
    obtain ⟨rs, h1, h2⟩ := group_parse hU (g := g) h.1 (s := 45 :: (sub.text ++ 93 :: r)) (.inr ⟨rfl, by simp [ht]⟩)
    obtain ⟨n, rfl⟩ : ∃ j, n = j + 1 := ⟨n - 1, by simp [Cls.text] at hn; omega⟩
    obtain ⟨qs, h3, h4⟩ := ih h.2 (93 :: r) n (by simp [Cls.text] at hn; omega)
    refine ⟨subtractClass rs qs, ?_, h2.subtract h4⟩
    have e : (Cls.minus g sub).text ++ r = 91 :: (g.text ++ 45 :: (sub.text ++ 93 :: r)) := by simp [Cls.text]
    rw [e, requireCharClassExpr, h1]
    simp [h3]

/-! ### quantifiers -/

theorem digits_foldl : ∀ (ds : Str), (∀ d ∈ ds, 48 ≤ d ∧ d ≤ 57) → ∀ acc, ds.foldl (fun acc d => acc * 10 + d - 48) acc = ds.foldl (fun acc d => acc * 10 + (d - 48)) acc := by
  intro ds
  induction ds with
  | nil => intro _ acc; rfl
  | cons d ds ih =>
    intro h acc
    have hd := h d (by simp)
    simp only [List.foldl_cons]
    rw [show acc * 10 + d - 48 = acc * 10 + (d - 48) by omega]
    exact ih (fun e he => h e (by simp [he])) _

theorem quantExact_of {ds : Str} (h : IsDigits ds) {c : Nat} (hc : c = 44 ∨ c = 125) (r : Str) :
    requireQuantExact (ds ++ c :: r) = some (digitsValue ds, c :: r) := by
  have h0 : ∀ d ∈ ds, isDig d = true := by
    intro d hd
    have := h.2 d hd
    simp only [isDig, Bool.and_eq_true, decide_eq_true_eq]
    omega
  have hcd : ¬ isDig c = true := by rcases hc with rfl | rfl <;> decide
  have h1 : (ds ++ c :: r).takeWhile isDig = ds := by
    rw [List.takeWhile_append_of_pos h0, List.takeWhile_cons_of_neg hcd, List.append_nil]
  have h2 : (ds ++ c :: r).dropWhile isDig = c :: r := by
    rw [List.dropWhile_append_of_pos h0, List.dropWhile_cons_of_neg hcd]
  unfold requireQuantExact
  rw [h1, h2, if_neg h.1, digits_foldl ds h.2]
  rfl

/-- What may not follow an atom without quantifier. -/
def NoQuant (s : Str) : Prop := s.head? ≠ some 63 ∧ s.head? ≠ some 42 ∧ s.head? ≠ some 43 ∧ s.head? ≠ some 123

theorem quantifier_none {s : Str} (h : NoQuant s) : quantifier s = none := by
  obtain ⟨h1, h2, h3, h4⟩ := h
  unfold quantifier
  split <;> simp_all

theorem quant_parse {q : Quant} (h : q.WF) {s : Str} (hs : NoQuant s) (a : Re) :
    ∃ p, withQuantifier a (q.text ++ s) = some (p, s) ∧
      (∀ w, Lang p w ↔ ∃ us : List Str, w = us.flatten ∧ (∀ u ∈ us, Lang a u) ∧ q.Allows us.length) ∧ (Good a → Good p) := by
  have key : ∀ (n : Nat) (m : Option Nat), (∀ k, m = some k → n ≤ k) → (∀ k, q.Allows k ↔ n ≤ k ∧ ∀ j, m = some j → k ≤ j) →
      (∀ w, Lang (quantified a n m) w ↔ ∃ us : List Str, w = us.flatten ∧ (∀ u ∈ us, Lang a u) ∧ q.Allows us.length) ∧ (Good a → Good (quantified a n m)) := by
    intro n m hnm hq
    constructor
    · intro w
      simp only [hq]
      unfold quantified
      split
      · next h0 =>
        obtain ⟨rfl, rfl⟩ := h0
        simp only [Lang]
        constructor
        · rintro rfl; exact ⟨[], rfl, by simp, by simp, by simp⟩
        · rintro ⟨us, rfl, _, _, h⟩
          have := h 0 rfl
          simp only [Nat.le_zero, List.length_eq_zero_iff] at this
          simp [this]
      · split
        · next h1 =>
          obtain ⟨rfl, rfl⟩ := h1
          constructor
          · intro hw; exact ⟨[w], by simp, by simpa using hw, by simp, by simp⟩
          · rintro ⟨us, rfl, hu, h1, h2⟩
            have := h2 1 rfl
            have h3 : us.length = 1 := by omega
            obtain ⟨u, rfl⟩ := List.length_eq_one_iff.mp h3
            simpa using hu
        · rfl
    · intro ha
      unfold quantified
      split
      · trivial
      · split
        · exact ha
        · exact ⟨ha, hnm⟩
  cases q with
  | none =>
    refine ⟨a, by simp [withQuantifier, Quant.text, quantifier_none hs], ?_, id⟩
    have := (key 1 (some 1) (by simp) (by intro k; simp [Quant.Allows]; omega)).1
    simpa [quantified] using this
  | opt =>
    refine ⟨quantified a 0 (some 1), by simp [withQuantifier, Quant.text, quantifier], key _ _ (by simp) (by intro k; simp [Quant.Allows])⟩
  | star =>
    refine ⟨quantified a 0 none, by simp [withQuantifier, Quant.text, quantifier], key _ _ (by simp) (by intro k; simp [Quant.Allows])⟩
  | plus =>
    refine ⟨quantified a 1 none, by simp [withQuantifier, Quant.text, quantifier], key _ _ (by simp) (by intro k; simp [Quant.Allows])⟩
  | exact ds =>
    refine ⟨quantified a (digitsValue ds) (some (digitsValue ds)), ?_, key _ _ (by simp) (by intro k; simp [Quant.Allows]; omega)⟩
    have e : (Quant.exact ds).text ++ s = 123 :: (ds ++ 125 :: s) := by simp [Quant.text]
    rw [e]
    simp [withQuantifier, quantifier, requireQuantity, quantExact_of (show IsDigits ds from h) (.inr rfl)]
  | atLeast ds =>
    refine ⟨quantified a (digitsValue ds) none, ?_, key _ _ (by simp) (by intro k; simp [Quant.Allows])⟩
    have e : (Quant.atLeast ds).text ++ s = 123 :: (ds ++ 44 :: 125 :: s) := by simp [Quant.text]
    rw [e]
    simp [withQuantifier, quantifier, requireQuantity, quantExact_of (show IsDigits ds from h) (.inl rfl), isDig]
  | between ds es =>
    obtain ⟨hd, he, hle⟩ := h
    refine ⟨quantified a (digitsValue ds) (some (digitsValue es)), ?_, key _ _ (by simpa using hle) (by intro k; simp [Quant.Allows])⟩
    have e : (Quant.between ds es).text ++ s = 123 :: (ds ++ 44 :: (es ++ 125 :: s)) := by simp [Quant.text]
    rw [e]
    obtain ⟨d, t, rfl⟩ : ∃ d t, es = d :: t := by
      cases es with
      | nil => exact absurd rfl he.1
      | cons d t => exact ⟨d, t, rfl⟩
    have hdig : isDig d = true := by
      have := he.2 d (by simp)
      simp only [isDig, Bool.and_eq_true, decide_eq_true_eq]
      omega
    have h2 := quantExact_of he (.inr rfl : (125 : Nat) = 44 ∨ (125 : Nat) = 125) s
    simp only [List.cons_append] at h2 ⊢
    simp [withQuantifier, quantifier, requireQuantity, quantExact_of hd (.inl rfl), hdig, h2, Nat.not_lt.mpr hle]

/-! ### expressions -/

/-- How the beginning of an atom is recognised. -/
theorem atom_head {U : Ucd} {a : Xre .atom} (h : a.WF U) : ∃ c t, a.text = c :: t ∧ (isNormal c = true ∨ c ∈ [46, 92, 91, 40]) := by
  cases a with
  | char c => exact ⟨c, [], rfl, .inl (by simpa [isNormal] using h.2)⟩
  | esc c x => exact ⟨92, [c], rfl, by simp⟩
  | dot => exact ⟨46, [], rfl, by simp⟩
  | multi m =>
    cases m with
    | shorthand c => exact ⟨92, [c], rfl, by simp⟩
    | category compl name => exact ⟨92, _, by simp [Xre.text, Multi.text]; rfl, by simp⟩
    | block compl name => exact ⟨92, _, by simp [Xre.text, Multi.text]; rfl, by simp⟩
  | cls k =>
    obtain ⟨t, e⟩ := cls_head k
    exact ⟨91, t, e, by simp⟩
  | group e => exact ⟨40, _, rfl, by simp⟩

/-- What may follow a branch. -/
def BranchEnd (s : Str) : Prop := s = [] ∨ s.head? = some 124 ∨ s.head? = some 41

theorem branchEnd_atomStart {s : Str} (h : BranchEnd s) : atomStart s = false := by
  cases s with
  | nil => rfl
  | cons c r =>
    rcases h with h | h | h
    · cases h
    · simp only [List.head?_cons, Option.some.injEq] at h; subst h; rfl
    · simp only [List.head?_cons, Option.some.injEq] at h; subst h; rfl

theorem branchEnd_noQuant {s : Str} (h : BranchEnd s) : NoQuant s := by
  unfold NoQuant
  rcases h with rfl | h | h
  · simp
  · simp [h]
  · simp [h]

theorem branch_noQuant {U : Ucd} {b : Xre .branch} (hb : b.WF U) {s : Str} (hs : BranchEnd s) : NoQuant (b.text ++ s) := by
  cases b with
  | nil => exact branchEnd_noQuant hs
  | cons a q b =>
    obtain ⟨c, t, e, hc⟩ := atom_head hb.1
    have : c ≠ 63 ∧ c ≠ 42 ∧ c ≠ 43 ∧ c ≠ 123 := by
      refine ⟨?_, ?_, ?_, ?_⟩ <;> rintro rfl <;> revert hc <;> decide
    simp [NoQuant, Xre.text, e, this]

theorem usual_good {rs : List Range} {S : Nat → Prop} (h : Repr rs S) (hu : Usual S) : GoodClass rs := by
  obtain ⟨⟨x, hx, hnx⟩, h2⟩ := hu
  refine ⟨h.1, h.2.1, ⟨x, hx, fun hh => hnx ((h.2.2 x).mp hh)⟩, ?_⟩
  rcases h2 with h2 | ⟨y, hy, h92, hn⟩
  · exact .inl ((h.2.2 92).mpr h2)
  · exact .inr ⟨y, hy, h92, fun hh => hn ((h.2.2 y).mp hh)⟩

theorem lang_cls {rs : List Range} {S : Nat → Prop} (h : Repr rs S) (w : Str) : Lang (.cls rs) w ↔ ∃ x, w = [x] ∧ S x := by
  simp only [Lang]
  exact exists_congr fun x => and_congr_right fun _ => h.2.2 x

theorem usual_single {x : Nat} : Usual (fun y => y = x) := by
  by_cases h : x = 0
  · exact ⟨⟨1, by decide, by omega⟩, .inr ⟨1, by decide, by decide, by omega⟩⟩
  · exact ⟨⟨0, by decide, by omega⟩, .inr ⟨0, by decide, by decide, by omega⟩⟩

/-- The parser reads an expression of each kind. -/
def Reads (U : Ucd) : {k : Kind} → Xre k → Prop
  | .atom, a => ∀ s n, 3 * a.text.length + 1 ≤ n → ∃ r, requireAtom U n (a.text ++ s) = some (r, s) ∧ (∀ w, Lang r w ↔ a.Lang U w) ∧ (a.Usual U → Good r)
  | .branch, b => ∀ s n, BranchEnd s → 3 * b.text.length + 2 ≤ n → ∃ r, requireBranch U n (b.text ++ s) = some (r, s) ∧ (∀ w, Lang r w ↔ b.Lang U w) ∧ (b.Usual U → Good r)
  | .re, e => ∀ s n, (s = [] ∨ s.head? = some 41) → 3 * e.text.length + 3 ≤ n → ∃ r, requireRegExp U n (e.text ++ s) = some (r, s) ∧ (∀ w, Lang r w ↔ e.Lang U w) ∧ (e.Usual U → Good r)

theorem atom_class {U : Ucd} {c : Nat} {t s : Str} {rs : List Range} (hc : c = 46 ∨ c = 92 ∨ c = 91) (h : requireCharClass U (c :: t) = some (rs, s)) (n : Nat) :
    requireAtom U (n + 1) (c :: t) = some (.cls rs, s) := by
  rw [requireAtom]
  have h1 : isNormal c = false := by rcases hc with rfl | rfl | rfl <;> decide
  have h2 : c ≠ 40 := by rcases hc with rfl | rfl | rfl <;> decide
  simp only [h1, Bool.false_eq_true, if_false, h2, h]
  rfl

theorem reads {U : Ucd} (hU : U.OK) : ∀ {k : Kind} (e : Xre k), e.WF U → Reads U e := by
  intro k e
  induction e with
  | char c =>
    intro h s n hn
    obtain ⟨n, rfl⟩ : ∃ j, n = j + 1 := ⟨n - 1, by omega⟩
    have hr := Repr.single h.1
    have hc : isNormal c = true := by simpa [isNormal] using h.2
    refine ⟨.cls [(c, c)], by simp [Xre.text, requireAtom, hc], fun w => (lang_cls hr w).trans ?_, fun _ => usual_good hr usual_single⟩
    simp [Xre.Lang]
  | esc c x =>
    intro h s n hn
    obtain ⟨n, rfl⟩ : ∃ j, n = j + 1 := ⟨n - 1, by omega⟩
    have hr := Repr.single (escapeOf_le h)
    refine ⟨.cls [(x, x)], ?_, fun w => (lang_cls hr w).trans ?_, fun _ => usual_good hr usual_single⟩
    · exact atom_class (by simp) (by simp only [requireCharClass]; exact singleEsc_classEsc U h s) n
    · simp [Xre.Lang]
  | dot =>
    intro h s n hn
    obtain ⟨n, rfl⟩ : ∃ j, n = j + 1 := ⟨n - 1, by omega⟩
    refine ⟨.cls dotClass, ?_, fun w => lang_cls Repr.dot w, fun _ => usual_good Repr.dot ⟨⟨10, by decide, by omega⟩, .inl ⟨by decide, by decide, by decide⟩⟩⟩
    exact atom_class (by simp) rfl n
  | multi m =>
    intro h s n hn
    obtain ⟨n, rfl⟩ : ∃ j, n = j + 1 := ⟨n - 1, by omega⟩
    obtain ⟨rs, h1, h2⟩ := multi_classEsc hU (m := m) h s
    refine ⟨.cls rs, ?_, fun w => lang_cls h2 w, fun hu => usual_good h2 hu⟩
    obtain ⟨t, ht⟩ : ∃ t, m.text = 92 :: t := by
      cases m with
      | shorthand c => exact ⟨_, rfl⟩
      | category compl name => exact ⟨_, by simp [Multi.text]; rfl⟩
      | block compl name => exact ⟨_, by simp [Multi.text]; rfl⟩
    simp only [Xre.text]
    rw [ht] at h1 ⊢
    exact atom_class (by simp) (by simp only [List.cons_append, requireCharClass]; exact h1) n
  | cls k =>
    intro h s n hn
    obtain ⟨n, rfl⟩ : ∃ j, n = j + 1 := ⟨n - 1, by omega⟩
    obtain ⟨rs, h1, h2⟩ := cls_parse hU (k := k) h s ((k.text ++ s).length + 1) (by simp only [List.length_append]; omega)
    refine ⟨.cls rs, ?_, fun w => lang_cls h2 w, fun hu => usual_good h2 hu⟩
    obtain ⟨t, ht⟩ := cls_head k
    simp only [Xre.text]
    rw [ht] at h1 ⊢
    exact atom_class (by simp) (by simp only [List.cons_append, requireCharClass] at h1 ⊢; exact h1) n
  | group e ih =>
    intro h s n hn
    obtain ⟨n, rfl⟩ : ∃ j, n = j + 1 := ⟨n - 1, by omega⟩
    have hlen : (Xre.group e).text.length = e.text.length + 2 := by simp [Xre.text]
    obtain ⟨r, h1, h2, h3⟩ := ih h (41 :: s) n (.inr rfl) (by omega)
    refine ⟨r, ?_, h2, h3⟩
    have e1 : (Xre.group e).text ++ s = 40 :: (e.text ++ 41 :: s) := by simp [Xre.text]
    rw [e1, requireAtom]
    simp [isNormal, h1]
  | nil =>
    intro _ s n hs hn
    obtain ⟨n, rfl⟩ : ∃ j, n = j + 1 := ⟨n - 1, by omega⟩
    refine ⟨.eps, ?_, fun w => Iff.rfl, fun _ => trivial⟩
    simp [Xre.text, requireBranch, branchEnd_atomStart hs]
  | cons a q b iha ihb =>
    intro h s n hs hn
    obtain ⟨n, rfl⟩ : ∃ j, n = j + 1 := ⟨n - 1, by omega⟩
    obtain ⟨c, t, ht, hc⟩ := atom_head h.1
    have hlen : (Xre.cons a q b).text.length = a.text.length + (q.text.length + b.text.length) := by simp [Xre.text]
    have hal : 1 ≤ a.text.length := by rw [ht]; simp
    obtain ⟨r1, h1, h2, h3⟩ := iha h.1 (q.text ++ (b.text ++ s)) n (by omega)
    obtain ⟨p, h4, h5, h6⟩ := quant_parse h.2.1 (branch_noQuant h.2.2 hs) r1
    obtain ⟨r2, h7, h8, h9⟩ := ihb h.2.2 s n hs (by omega)
    refine ⟨.seq p r2, ?_, fun w => ?_, fun hu => ⟨h6 (h3 hu.1), h9 hu.2⟩⟩
    · have e1 : (Xre.cons a q b).text ++ s = a.text ++ (q.text ++ (b.text ++ s)) := by simp [Xre.text]
      have hst : atomStart (a.text ++ (q.text ++ (b.text ++ s))) = true := by
        rw [ht]
        simp only [List.cons_append, atomStart, Bool.or_eq_true]
        rcases hc with hc | hc
        · exact .inl hc
        · exact .inr (by simpa using hc)
      rw [e1, requireBranch, if_pos hst, h1]
      dsimp only
      rw [h4]
      dsimp only
      rw [h7]
      rfl
    · simp only [Lang, Xre.Lang, h5, h2, h8]
      constructor
      · rintro ⟨u, v, rfl, ⟨us, rfl, hu, hq⟩, hv⟩
        exact ⟨us, v, rfl, hu, hq, hv⟩
      · rintro ⟨us, v, rfl, hu, hq, hv⟩
        exact ⟨us.flatten, v, rfl, ⟨us, rfl, hu, hq⟩, hv⟩
  | one b ih =>
    intro h s n hs hn
    obtain ⟨n, rfl⟩ : ∃ j, n = j + 1 := ⟨n - 1, by omega⟩
    have hlen : (Xre.one b).text.length = b.text.length := rfl
    obtain ⟨r, h1, h2, h3⟩ := ih h s n (by rcases hs with hs | hs; exact .inl hs; exact .inr (.inr hs)) (by omega)
    refine ⟨r, ?_, h2, h3⟩
    simp only [Xre.text]
    rw [requireRegExp, h1]
    split
    · next heq => cases heq
    · next heq =>
      simp only [Option.some.injEq, Prod.mk.injEq] at heq
      obtain ⟨rfl, rfl⟩ := heq
      simp at hs
    · next heq =>
      simp only [Option.some.injEq, Prod.mk.injEq] at heq
      obtain ⟨rfl, rfl⟩ := heq
      rfl
  | or b e ihb ihe =>
    intro h s n hs hn
    obtain ⟨n, rfl⟩ : ∃ j, n = j + 1 := ⟨n - 1, by omega⟩
    have hlen : (Xre.or b e).text.length = b.text.length + (e.text.length + 1) := by simp [Xre.text]
    obtain ⟨r1, h1, h2, h3⟩ := ihb h.1 (124 :: (e.text ++ s)) n (.inr (.inl rfl)) (by omega)
    obtain ⟨r2, h4, h5, h6⟩ := ihe h.2 s n hs (by omega)
    refine ⟨.alt r1 r2, ?_, fun w => ?_, fun hu => ⟨h3 hu.1, h6 hu.2⟩⟩
    · have e1 : (Xre.or b e).text ++ s = b.text ++ 124 :: (e.text ++ s) := by simp [Xre.text]
      rw [e1, requireRegExp, h1]
      simp [h4]
    · simp only [Lang, Xre.Lang, h2, h5]

/-- **C158**: every regular expression of the grammar is accepted by the constructor, and its pattern describes the texts the
expression describes (the pattern can be compiled if no class is one of the two of C156). -/
theorem C158_accepts_partial {U : Ucd} (hU : U.OK) (e : Xre .re) (h : e.WF U) :
    ∃ r, parse U e.text = some r ∧ (∀ w, Lang r w ↔ e.Lang U w) ∧ (e.Usual U → Good r ∧ r.compiles = true) := by
  obtain ⟨r, h1, h2, h3⟩ := reads hU e h [] (3 * e.text.length + 3) (.inl rfl) (Nat.le_refl _)
  rw [List.append_nil] at h1
  exact ⟨r, by simp [parse, h1], h2, fun hu => ⟨h3 hu, good_compiles (h3 hu)⟩⟩

/-- **C158**: `RegularExpression(text).match(t)` gives an answer for every expression of the grammar; it is true only of texts the
expression describes, and of all of them that have no proper beginning the expression describes. -/
theorem C158_match_partial {U : Ucd} (hU : U.OK) (e : Xre .re) (h : e.WF U) (hu : e.Usual U) {t : Str} (ht : Text t) :
    ∃ b, regexMatch U e.text t = some b ∧ (b = true → e.Lang U t) ∧
      ((∀ p q, t = p ++ q → q ≠ [] → ¬ e.Lang U p) → (b = true ↔ e.Lang U t)) := by
  obtain ⟨r, h1, h2, h3⟩ := C158_accepts_partial hU e h
  obtain ⟨hg, hc⟩ := h3 hu
  refine ⟨reMatch r t, by simp [regexMatch, h1, hc], fun hm => (h2 t).mp (C157_sound_partial hg ht hm), fun hp => ?_⟩
  rw [← h2]
  exact C157_prefix_free_partial hg ht fun p q e0 hq hl => hp p q e0 hq ((h2 p).mp hl)

/-- **C158** (violation): what follows the longest expression is ignored: `a)b` and `a**` are accepted and mean `a` and `a*`. -/
theorem C158_trailing_violation : parse noUcd [97, 41, 98] = parse noUcd [97] ∧ parse noUcd [97, 42, 42] = parse noUcd [97, 42] ∧
    regexMatch noUcd [97, 41, 98] [97] = some true := by decide +kernel

/-- `[a-z-[aeiou]]+(\-\d{2,3})?|.` is an expression of the grammar. -/
example : (Xre.or (.cons (.cls (.minus ⟨false, [.range (.lit 97) (.lit 122)], false⟩
      (.plain ⟨false, [.one (.lit 97), .one (.lit 101), .one (.lit 105), .one (.lit 111), .one (.lit 117)], false⟩))) .plus
      (.cons (.group (.one (.cons (.esc 45 45) .none (.cons (.multi (.shorthand 100)) (.between [50] [51]) .nil)))) .opt .nil))
      (.one (.cons .dot .none .nil))).WF noUcd := by
  simp [Xre.WF, Cls.WF, Group.WF, Item.WF, Ch.WF, Item.text, Ch.text, Ch.val, Quant.WF, IsDigits, digitsValue, EscapeOf, Multi.WF, maxunicode]

example : noUcd.OK := by
  constructor <;> simp [noUcd, IsClass, Canon, Mem]

end Verif.Xsd
