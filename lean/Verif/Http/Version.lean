import Verif.Http.ParamProps
import Mathlib.Order.Lattice
/-!
# Comparison of product tokens, `ProductToken`, `pyslet/http/params.py:541-653` (C160)

Keys are tuples of tuples of numbers and strings; Python 3 compares tuples at the first place where they differ, and the
comparison of a number with a string there is a TypeError.
-/
namespace Verif.Http
open Text (isDigit decVal decStr decVal_decStr decStr_isDigit decStr_ne_nil)

/-- A member of a tuple of `explode`. -/
inductive VAtom where
  | num (n : Int)
  | str (s : Bytes)
  deriving DecidableEq, Repr

/-- The inner loop of `explode`, params.py:598-615: `v` is `vitem`, `m` is `modifier`.  The first argument bounds the number of
iterations. -/
def explodeItem : Nat → List VAtom → Bytes → Bytes → List VAtom × Bytes
  | 0, v, _, s => (v, s)
  | n + 1, v, m, s =>
    if s = [] ∨ s.head? = some 46 then (if m ≠ [] then v ++ [.str m] else if v ≠ [] then v ++ [.str [126]] else v, s)
    else if (s.head?.map isDigit).getD false then
      explodeItem n ((if m ≠ [] then v ++ [.str m] else v) ++ [.num (decVal (s.takeWhile isDigit))]) [] (s.dropWhile isDigit)
    else explodeItem n (if v = [] then [.num (-1)] else v) (m ++ s.take 1) s.tail

/-- The outer loop of `explode`, params.py:594-616. -/
def explodeLoop : Nat → Bytes → List (List VAtom)
  | 0, _ => []
  | n + 1, s =>
    if s = [] then []
    else
      let p := explodeItem (s.length + 1) [] [] s
      p.1 :: explodeLoop n (if p.2.head? = some 46 then p.2.tail else p.2)

/-- `ProductToken.explode`, params.py:573-617. -/
def explode (version : Bytes) : List (List VAtom) := explodeLoop version.length version

/-- The comparison of tuples: the first members that differ decide, then the lengths. -/
def cmpList {α : Type} (c : α → α → Option Ordering) : List α → List α → Option Ordering
  | [], [] => some .eq
  | [], _ :: _ => some .lt
  | _ :: _, [] => some .gt
  | a :: as, b :: bs => match c a b with
    | some .eq => cmpList c as bs
    | o => o

/-- Comparison of strings. -/
def cmpStr : Bytes → Bytes → Option Ordering := cmpList fun a b => some (compare a b)

/-- Comparison of the members of a tuple; `none` is TypeError. -/
def cmpAtom : VAtom → VAtom → Option Ordering
  | .num a, .num b => some (compare a b)
  | .str a, .str b => cmpStr a b
  | _, _ => none

/-- `ProductToken.sortkey`, params.py:562-571, 652-653. -/
def ProductToken.sortkey (p : ProductToken) : Bytes × List (List VAtom) :=
  (p.token, match p.version with
    | some v => explode v
    | none => [])

/-- The comparison of two keys by the operators of `SortableMixin`, py2.py:365-425; `none` is TypeError. -/
def ProductToken.cmp (p q : ProductToken) : Option Ordering :=
  match cmpStr p.sortkey.1 q.sortkey.1 with
  | some .eq => cmpList (cmpList cmpAtom) p.sortkey.2 q.sortkey.2
  | o => o

/-! ### comparison is a total order -/

/-- `c` compares the things that satisfy `P` as a total order does. -/
structure Lawful {α : Type} (P : α → Prop) (c : α → α → Option Ordering) : Prop where
  total : ∀ a b, P a → P b → ∃ o, c a b = some o
  eq : ∀ a b, P a → P b → (c a b = some .eq ↔ a = b)
  swap : ∀ a b, P a → P b → (c a b = some .lt ↔ c b a = some .gt)
  trans : ∀ a b d, P a → P b → P d → c a b = some .lt → c b d = some .lt → c a d = some .lt

/-- The members of the list satisfy `P` of their positions, which alternate. -/
def Alt {α : Type} (P Q : α → Prop) : List α → Prop
  | [] => True
  | a :: l => P a ∧ Alt Q P l

theorem cmpList_lawful {α : Type} {c : α → α → Option Ordering} : ∀ {P Q : α → Prop}, Lawful P c → Lawful Q c → Lawful (Alt P Q) (cmpList c) := by
  have h1 : ∀ (l m : List α) {P Q : α → Prop}, Lawful P c → Lawful Q c → Alt P Q l → Alt P Q m →
      (∃ o, cmpList c l m = some o) ∧ (cmpList c l m = some .eq ↔ l = m) ∧ (cmpList c l m = some .lt ↔ cmpList c m l = some .gt) := by
    intro l
    induction l with
    | nil =>
      intro m P Q _ _ _ _
      cases m with
      | nil => simp [cmpList]
      | cons b bs => simp [cmpList]
    | cons a as ih =>
      intro m P Q hP hQ hl hm
      cases m with
      | nil => simp [cmpList]
      | cons b bs =>
        obtain ⟨o, ho⟩ := hP.total a b hl.1 hm.1
        obtain ⟨o', ho'⟩ := hP.total b a hm.1 hl.1
        have e1 := hP.eq a b hl.1 hm.1
        have e2 := hP.eq b a hm.1 hl.1
        have s1 := hP.swap a b hl.1 hm.1
        have s2 := hP.swap b a hm.1 hl.1
        obtain ⟨r1, r2, r3⟩ := ih bs hQ hP hl.2 hm.2
        by_cases hab : a = b
        · subst hab
          have := e1.mpr rfl
          simp only [cmpList, this, List.cons.injEq, true_and]
          exact ⟨r1, r2, r3⟩
        · have hne : o ≠ .eq := by rintro rfl; exact hab (e1.mp ho)
          have hne' : o' ≠ .eq := by rintro rfl; exact hab (e2.mp ho').symm
          rw [ho, ho'] at s1 s2
          simp only [cmpList, ho, ho', List.cons.injEq, hab, false_and, iff_false]
          cases o <;> cases o' <;> simp_all
  have h2 : ∀ (l m k : List α) {P Q : α → Prop}, Lawful P c → Lawful Q c → Alt P Q l → Alt P Q m → Alt P Q k →
      cmpList c l m = some .lt → cmpList c m k = some .lt → cmpList c l k = some .lt := by
    intro l
    induction l with
    | nil =>
      intro m k P Q _ _ _ _ _ h h'
      cases m with
      | nil => simp [cmpList] at h
      | cons b bs =>
        cases k with
        | nil => simp [cmpList] at h'
        | cons d ds => rfl
    | cons a as ih =>
      intro m k P Q hP hQ hl hm hk h h'
      cases m with
      | nil => simp [cmpList] at h
      | cons b bs =>
        cases k with
        | nil => simp [cmpList] at h'
        | cons d ds =>
          obtain ⟨o, ho⟩ := hP.total a b hl.1 hm.1
          obtain ⟨o', ho'⟩ := hP.total b d hm.1 hk.1
          simp only [cmpList, ho] at h
          simp only [cmpList, ho'] at h'
          cases o with
          | gt => simp at h
          | eq =>
            have hab := (hP.eq a b hl.1 hm.1).mp ho
            subst hab
            simp only [cmpList, ho']
            cases o' with
            | gt => simp at h'
            | lt => rfl
            | eq => exact ih bs ds hQ hP hl.2 hm.2 hk.2 h h'
          | lt =>
            cases o' with
            | gt => simp at h'
            | lt => simp only [cmpList, hP.trans a b d hl.1 hm.1 hk.1 ho ho']
            | eq =>
              have hbd := (hP.eq b d hm.1 hk.1).mp ho'
              subst hbd
              simp only [cmpList, ho]
  intro P Q hP hQ
  exact ⟨fun a b ha hb => (h1 a b hP hQ ha hb).1, fun a b ha hb => (h1 a b hP hQ ha hb).2.1, fun a b ha hb => (h1 a b hP hQ ha hb).2.2,
    fun a b d ha hb hd => h2 a b d hP hQ ha hb hd⟩

theorem alt_true {α : Type} (l : List α) : Alt (fun _ => True) (fun _ => True) l := by
  induction l with
  | nil => trivial
  | cons a l ih => exact ⟨trivial, ih⟩

theorem lawful_compare {α : Type} [LinearOrder α] : Lawful (fun _ : α => True) (fun a b => some (compare a b)) := by
  refine ⟨fun a b _ _ => ⟨_, rfl⟩, fun a b _ _ => ?_, fun a b _ _ => ?_, fun a b d _ _ _ => ?_⟩
  · simp [compare_eq_iff_eq]
  · simp [compare_lt_iff_lt, compare_gt_iff_gt]
  · simp only [Option.some.injEq, compare_lt_iff_lt]
    exact lt_trans

theorem cmpStr_lawful : Lawful (fun _ => True) cmpStr := by
  have := cmpList_lawful (lawful_compare (α := Nat)) lawful_compare
  exact ⟨fun a b _ _ => this.total a b (alt_true a) (alt_true b), fun a b _ _ => this.eq a b (alt_true a) (alt_true b),
    fun a b _ _ => this.swap a b (alt_true a) (alt_true b), fun a b d _ _ _ => this.trans a b d (alt_true a) (alt_true b) (alt_true d)⟩

/-- Numbers and strings. -/
def IsNum : VAtom → Prop
  | .num _ => True
  | .str _ => False
def IsStr : VAtom → Prop
  | .num _ => False
  | .str _ => True

theorem lawful_num : Lawful IsNum cmpAtom := by
  have h := lawful_compare (α := Int)
  refine ⟨?_, ?_, ?_, ?_⟩
  · intro a b ha hb
    cases a <;> cases b <;> first | exact absurd ha id | exact absurd hb id | exact ⟨_, rfl⟩
  · intro a b ha hb
    cases a <;> cases b <;> first | exact absurd ha id | exact absurd hb id | skip
    rw [VAtom.num.injEq]
    exact h.eq _ _ trivial trivial
  · intro a b ha hb
    cases a <;> cases b <;> first | exact absurd ha id | exact absurd hb id | skip
    exact h.swap _ _ trivial trivial
  · intro a b d ha hb hd
    cases a <;> cases b <;> cases d <;> first | exact absurd ha id | exact absurd hb id | exact absurd hd id | skip
    exact h.trans _ _ _ trivial trivial trivial

theorem lawful_str : Lawful IsStr cmpAtom := by
  have h := cmpStr_lawful
  refine ⟨?_, ?_, ?_, ?_⟩
  · intro a b ha hb
    cases a <;> cases b <;> first | exact absurd ha id | exact absurd hb id | skip
    exact h.total _ _ trivial trivial
  · intro a b ha hb
    cases a <;> cases b <;> first | exact absurd ha id | exact absurd hb id | skip
    rw [VAtom.str.injEq]
    exact h.eq _ _ trivial trivial
  · intro a b ha hb
    cases a <;> cases b <;> first | exact absurd ha id | exact absurd hb id | skip
    exact h.swap _ _ trivial trivial
  · intro a b d ha hb hd
    cases a <;> cases b <;> cases d <;> first | exact absurd ha id | exact absurd hb id | exact absurd hd id | skip
    exact h.trans _ _ _ trivial trivial trivial

/-! ### what explode makes -/

theorem alt_snoc {α : Type} : ∀ (l : List α) {P Q : α → Prop} {x : α}, Alt P Q l → (l.length % 2 = 0 → P x) → (l.length % 2 = 1 → Q x) → Alt P Q (l ++ [x]) := by
  intro l
  induction l with
  | nil => intro P Q x _ h _; exact ⟨h rfl, trivial⟩
  | cons a l ih =>
    intro P Q x h h0 h1
    refine ⟨h.1, ih h.2 ?_ ?_⟩
    · intro e; apply h1; simp only [List.length_cons]; omega
    · intro e; apply h0; simp only [List.length_cons]; omega

theorem dropWhile_head {p : Nat → Bool} (s : Bytes) : ¬ ((s.dropWhile p).head?.map p).getD false = true := by
  induction s with
  | nil => simp
  | cons a s ih =>
    by_cases h : p a = true
    · rw [List.dropWhile_cons_of_pos h]; exact ih
    · rw [List.dropWhile_cons_of_neg h]; simpa using h

/-- In each tuple numbers and strings alternate, and the first member is a number. -/
theorem explodeItem_alt : ∀ (n : Nat) (v : List VAtom) (m s : Bytes), Alt IsNum IsStr v →
    (v = [] → m = []) → (m ≠ [] → v.length % 2 = 1) → (m = [] → v ≠ [] → v.length % 2 = 1 ∧ ¬ (s.head?.map isDigit).getD false = true) →
    Alt IsNum IsStr (explodeItem n v m s).1 := by
  intro n
  induction n with
  | zero => intro v m s h _ _ _; exact h
  | succ n ih =>
    intro v m s h hv hm hm0
    rw [explodeItem]
    split
    · dsimp only
      split
      · next hne => exact alt_snoc v h (by intro e; have := hm hne; omega) (fun _ => trivial)
      · next hne =>
        have hne : m = [] := by simpa using hne
        split
        · next hvn => exact alt_snoc v h (by intro e; have := (hm0 hne hvn).1; omega) (fun _ => trivial)
        · exact h
    · split
      · next hd =>
        have hlen : ((if m ≠ [] then v ++ [VAtom.str m] else v)).length % 2 = 0 := by
          split
          · next hne => have := hm hne; simp only [List.length_append, List.length_singleton]; omega
          · next hne =>
            have hne : m = [] := by simpa using hne
            by_cases hvn : v = []
            · simp [hvn]
            · exact absurd hd (hm0 hne hvn).2
        have ha : Alt IsNum IsStr (if m ≠ [] then v ++ [VAtom.str m] else v) := by
          split
          · next hne => exact alt_snoc v h (by intro e; have := hm hne; omega) (fun _ => trivial)
          · exact h
        refine ih _ [] _ (alt_snoc _ ha (fun _ => trivial) (by omega)) (fun _ => rfl) (by simp) (fun _ _ => ⟨?_, dropWhile_head s⟩)
        simp only [List.length_append, List.length_singleton]
        omega
      · next hs hd =>
        have hs' : s ≠ [] := fun e => hs (.inl e)
        have htake : s.take 1 ≠ [] := by
          cases s with
          | nil => exact absurd rfl hs'
          | cons c r => simp
        refine ih _ _ _ ?_ ?_ ?_ ?_
        · split
          · exact ⟨trivial, trivial⟩
          · exact h
        · split
          · intro e; simp at e
          · next hvn => intro e; exact absurd e hvn
        · intro _
          split
          · rfl
          · next hvn =>
            by_cases hne : m = []
            · exact (hm0 hne hvn).1
            · exact hm hne
        · intro e; simp [htake] at e

theorem explodeLoop_alt : ∀ (n : Nat) (s : Bytes), ∀ i ∈ explodeLoop n s, Alt IsNum IsStr i := by
  intro n
  induction n with
  | zero => intro s i hi; cases hi
  | succ n ih =>
    intro s i hi
    rw [explodeLoop] at hi
    split at hi
    · cases hi
    · dsimp only at hi
      rcases List.mem_cons.mp hi with rfl | hi
      · exact explodeItem_alt _ _ _ _ trivial (fun _ => rfl) (by simp) (fun _ h => absurd rfl h)
      · exact ih _ i hi

theorem sortkey_alt (p : ProductToken) : Alt (Alt IsNum IsStr) (Alt IsNum IsStr) p.sortkey.2 := by
  have aux : ∀ l : List (List VAtom), (∀ i ∈ l, Alt IsNum IsStr i) → Alt (Alt IsNum IsStr) (Alt IsNum IsStr) l := by
    intro l
    induction l with
    | nil => intro _; trivial
    | cons a l ih => intro h; exact ⟨h a (by simp), ih fun i hi => h i (by simp [hi])⟩
  apply aux
  unfold ProductToken.sortkey
  cases p.version with
  | none => simp
  | some v => exact explodeLoop_alt _ _

theorem versions_lawful : Lawful (Alt (Alt IsNum IsStr) (Alt IsNum IsStr)) (cmpList (cmpList cmpAtom)) :=
  cmpList_lawful (cmpList_lawful lawful_num lawful_str) (cmpList_lawful lawful_num lawful_str)

/-- **C160**: any two product tokens can be compared (there is no TypeError), and the comparison is a total order: two are equal
exactly if their keys are, one is less exactly if the other is greater, and less is transitive. -/
theorem C160_total_order :
    (∀ p q : ProductToken, ∃ o, p.cmp q = some o) ∧
    (∀ p q : ProductToken, p.cmp q = some .eq ↔ p.sortkey = q.sortkey) ∧
    (∀ p q : ProductToken, p.cmp q = some .lt ↔ q.cmp p = some .gt) ∧
    (∀ p q r : ProductToken, p.cmp q = some .lt → q.cmp r = some .lt → p.cmp r = some .lt) := by
  have hs := cmpStr_lawful
  have hv := versions_lawful
  refine ⟨?_, ?_, ?_, ?_⟩
  · intro p q
    obtain ⟨o, ho⟩ := hs.total p.sortkey.1 q.sortkey.1 trivial trivial
    unfold ProductToken.cmp
    rw [ho]
    cases o with
    | eq => exact hv.total _ _ (sortkey_alt p) (sortkey_alt q)
    | lt => exact ⟨_, rfl⟩
    | gt => exact ⟨_, rfl⟩
  · intro p q
    obtain ⟨o, ho⟩ := hs.total p.sortkey.1 q.sortkey.1 trivial trivial
    have e := hs.eq p.sortkey.1 q.sortkey.1 trivial trivial
    unfold ProductToken.cmp
    rw [ho] at e ⊢
    rw [Prod.ext_iff]
    cases o with
    | eq =>
      have e' := e.mp rfl
      dsimp only
      rw [hv.eq _ _ (sortkey_alt p) (sortkey_alt q)]
      exact ⟨fun h => ⟨e', h⟩, fun h => h.2⟩
    | lt => simp only [Option.some.injEq, reduceCtorEq, false_iff] at e ⊢; exact fun h => e h.1
    | gt => simp only [Option.some.injEq, reduceCtorEq, false_iff] at e ⊢; exact fun h => e h.1
  · intro p q
    obtain ⟨o, ho⟩ := hs.total p.sortkey.1 q.sortkey.1 trivial trivial
    obtain ⟨o', ho'⟩ := hs.total q.sortkey.1 p.sortkey.1 trivial trivial
    have e := hs.eq p.sortkey.1 q.sortkey.1 trivial trivial
    have e' := hs.eq q.sortkey.1 p.sortkey.1 trivial trivial
    have s1 := hs.swap p.sortkey.1 q.sortkey.1 trivial trivial
    have s2 := hs.swap q.sortkey.1 p.sortkey.1 trivial trivial
    have v1 := hv.swap _ _ (sortkey_alt p) (sortkey_alt q)
    unfold ProductToken.cmp
    rw [ho, ho'] at s1 s2
    rw [ho] at e
    rw [ho'] at e'
    rw [ho, ho']
    cases o <;> cases o' <;> simp_all
  · intro p q r h1 h2
    obtain ⟨o, ho⟩ := hs.total p.sortkey.1 q.sortkey.1 trivial trivial
    obtain ⟨o', ho'⟩ := hs.total q.sortkey.1 r.sortkey.1 trivial trivial
    unfold ProductToken.cmp at h1 h2 ⊢
    rw [ho] at h1
    rw [ho'] at h2
    cases o with
    | gt => simp at h1
    | eq =>
      have e := (hs.eq p.sortkey.1 q.sortkey.1 trivial trivial).mp ho
      rw [e, ho']
      cases o' with
      | gt => simp at h2
      | lt => rfl
      | eq => exact hv.trans _ _ _ (sortkey_alt p) (sortkey_alt q) (sortkey_alt r) h1 h2
    | lt =>
      cases o' with
      | gt => simp at h2
      | lt => rw [hs.trans _ _ _ trivial trivial trivial ho ho']
      | eq =>
        have e := (hs.eq q.sortkey.1 r.sortkey.1 trivial trivial).mp ho'
        rw [← e, ho]

/-! ### what the order is -/

/-- One component of a version, between the dots: digits, then modifiers and digits in turn. -/
structure Comp where
  lead : Bytes
  parts : List (Bytes × Bytes)
  last : Bytes

/-- A run of characters that are neither digits nor dots. -/
def IsMod (m : Bytes) : Prop := ∀ c ∈ m, ¬ (48 ≤ c ∧ c ≤ 57) ∧ c ≠ 46

/-- A run of digits. -/
def IsRun (d : Bytes) : Prop := ∀ c ∈ d, 48 ≤ c ∧ c ≤ 57

structure Comp.WF (k : Comp) : Prop where
  lead : IsRun k.lead
  parts : ∀ p ∈ k.parts, p.1 ≠ [] ∧ IsMod p.1 ∧ p.2 ≠ [] ∧ IsRun p.2
  last : IsMod k.last
  some : k.lead ≠ [] ∨ k.parts ≠ [] ∨ k.last ≠ []

def Comp.text (k : Comp) : Bytes := k.lead ++ (k.parts.flatMap (fun p => p.1 ++ p.2) ++ k.last)

/-- What a component is compared by: its numbers, -1 for a missing first one, and its modifiers, `~` for a missing last one. -/
def Comp.value (k : Comp) : List VAtom :=
  [.num (if k.lead = [] then -1 else decVal k.lead)] ++ k.parts.flatMap (fun p => [.str p.1, .num (decVal p.2)]) ++
    [.str (if k.last = [] then [126] else k.last)]

/-- Components joined by dots. -/
def dotJoin : List Bytes → Bytes
  | [] => []
  | [a] => a
  | a :: l => a ++ 46 :: dotJoin l

theorem run_digit {d : Bytes} (h : IsRun d) : ∀ c ∈ d, isDigit c = true := by
  intro c hc
  have := h c hc
  simp only [isDigit, Bool.and_eq_true, decide_eq_true_eq]
  omega

theorem mod_digit {m : Bytes} (h : IsMod m) : ∀ c ∈ m, isDigit c = false := by
  intro c hc
  have := (h c hc).1
  cases e : isDigit c with
  | false => rfl
  | true =>
    simp only [isDigit, Bool.and_eq_true, decide_eq_true_eq] at e
    exact absurd e this

/-- The text does not begin with a digit. -/
def NoDigit (s : Bytes) : Prop := ¬ (s.head?.map isDigit).getD false = true

theorem item_mod : ∀ (m : Bytes), IsMod m → ∀ (n : Nat) (v : List VAtom) (acc s : Bytes), v ≠ [] →
    explodeItem (n + m.length) v acc (m ++ s) = explodeItem n v (acc ++ m) s := by
  intro m
  induction m with
  | nil => intro _ n v acc s _; simp
  | cons c m ih =>
    intro h n v acc s hv
    have hd := mod_digit h c (by simp)
    have hc := (h c (by simp)).2
    simp only [List.length_cons, ← Nat.add_assoc, List.cons_append]
    rw [explodeItem, if_neg (by simp [hc]), if_neg (by simp [hd]), if_neg hv]
    simp only [List.take_succ_cons, List.take_zero, List.tail_cons]
    rw [ih (fun x hx => h x (by simp [hx])) n v _ s hv]
    simp

theorem item_digits {d : Bytes} (hne : d ≠ []) (h : IsRun d) (n : Nat) (v : List VAtom) (m : Bytes) {s : Bytes} (hs : NoDigit s) :
    explodeItem (n + 1) v m (d ++ s) = explodeItem n ((if m ≠ [] then v ++ [.str m] else v) ++ [.num (decVal d)]) [] s := by
  have h0 := run_digit h
  have hs' : (s.takeWhile isDigit) = [] ∧ s.dropWhile isDigit = s := by
    cases s with
    | nil => exact ⟨rfl, rfl⟩
    | cons c r =>
      have hc : ¬ isDigit c = true := by simpa [NoDigit] using hs
      exact ⟨List.takeWhile_cons_of_neg hc, List.dropWhile_cons_of_neg hc⟩
  have h1 : (d ++ s).takeWhile isDigit = d := by rw [List.takeWhile_append_of_pos h0, hs'.1, List.append_nil]
  have h2 : (d ++ s).dropWhile isDigit = s := by rw [List.dropWhile_append_of_pos h0, hs'.2]
  obtain ⟨c, r, rfl⟩ : ∃ c r, d = c :: r := by
    cases d with
    | nil => exact absurd rfl hne
    | cons c r => exact ⟨c, r, rfl⟩
  have hc := h c (by simp)
  rw [explodeItem, h1, h2, if_neg (by simp only [List.cons_append, List.head?_cons, Option.some.injEq, reduceCtorEq, false_or]; omega),
    if_pos (by simp [h0 c (by simp)])]

/-- What follows a component. -/
def CompEnd (s : Bytes) : Prop := s = [] ∨ s.head? = some 46

theorem compEnd_noDigit {s : Bytes} (h : CompEnd s) : NoDigit s := by
  unfold NoDigit
  rcases h with rfl | h
  · simp
  · rw [h]; decide

theorem parts_noDigit {ps : List (Bytes × Bytes)} (hp : ∀ p ∈ ps, p.1 ≠ [] ∧ IsMod p.1 ∧ p.2 ≠ [] ∧ IsRun p.2) {last : Bytes} (hl : IsMod last) {s : Bytes} (hs : CompEnd s) :
    NoDigit (ps.flatMap (fun p => p.1 ++ p.2) ++ (last ++ s)) := by
  have aux : ∀ (m r : Bytes), m ≠ [] → IsMod m → NoDigit (m ++ r) := by
    intro m r hne hm
    cases m with
    | nil => exact absurd rfl hne
    | cons c m => simp [NoDigit, mod_digit hm c (by simp)]
  cases ps with
  | nil =>
    by_cases h : last = []
    · subst h; simpa using compEnd_noDigit hs
    · simpa using aux last s h hl
  | cons p ps =>
    simp only [List.flatMap_cons, List.append_assoc]
    exact aux _ _ (hp p (by simp)).1 (hp p (by simp)).2.1

theorem item_parts {last : Bytes} (hl : IsMod last) {s : Bytes} (hs : CompEnd s) : ∀ (ps : List (Bytes × Bytes)), (∀ p ∈ ps, p.1 ≠ [] ∧ IsMod p.1 ∧ p.2 ≠ [] ∧ IsRun p.2) →
    ∀ (n : Nat) (v : List VAtom), v ≠ [] → (ps.flatMap (fun p => p.1 ++ p.2) ++ last).length + 1 ≤ n →
    explodeItem n v [] (ps.flatMap (fun p => p.1 ++ p.2) ++ (last ++ s)) =
      (v ++ ps.flatMap (fun p => [.str p.1, .num (decVal p.2)]) ++ [.str (if last = [] then [126] else last)], s) := by
  intro ps
  induction ps with
  | nil =>
    intro _ n v hv hn
    simp only [List.flatMap_nil, List.nil_append] at hn ⊢
    obtain ⟨k, rfl⟩ : ∃ k, n = (k + 1) + last.length := ⟨n - 1 - last.length, by omega⟩
    rw [item_mod last hl (k + 1) v [] s hv, explodeItem, if_pos (show s = [] ∨ s.head? = some 46 from hs)]
    by_cases h : last = []
    · simp [h, hv]
    · simp [h]
  | cons p ps ih =>
    intro hp n v hv hn
    obtain ⟨h1, h2, h3, h4⟩ := hp p (by simp)
    have hp' := fun q hq => hp q (List.mem_cons_of_mem _ hq)
    simp only [List.flatMap_cons, List.append_assoc, List.length_append] at hn ⊢
    have hlp : 0 < p.2.length := List.length_pos_iff.mpr h3
    obtain ⟨k, rfl⟩ : ∃ k, n = (k + 1) + p.1.length := ⟨n - 1 - p.1.length, by omega⟩
    rw [item_mod p.1 h2 (k + 1) v [] _ hv, List.nil_append, item_digits h3 h4 k v p.1 (parts_noDigit hp' hl hs), if_pos h1,
      ih hp' k _ (by simp) (by simp only [List.length_append]; omega)]
    simp

theorem item_comp {k : Comp} (h : k.WF) {s : Bytes} (hs : CompEnd s) {n : Nat} (hn : k.text.length + 1 ≤ n) :
    explodeItem n [] [] (k.text ++ s) = (k.value, s) := by
  unfold Comp.text Comp.value at *
  have hnd := parts_noDigit h.parts h.last hs
  by_cases hlead : k.lead = []
  · simp only [hlead, List.nil_append, if_true, List.append_assoc] at hn ⊢
    -- the first character is not a digit: the first step adds -1
    have first : ∀ (c : Nat) (r : Bytes) (j : Nat), isDigit c = false → c ≠ 46 →
        explodeItem (j + 1) [] [] (c :: r) = explodeItem (j + 1) [.num (-1)] [] (c :: r) := by
      intro c r j hd hc
      simp [explodeItem, hc, hd]
    obtain ⟨c, r, e, hd, hc⟩ : ∃ c r, k.parts.flatMap (fun p => p.1 ++ p.2) ++ (k.last ++ s) = c :: r ∧ isDigit c = false ∧ c ≠ 46 := by
      have aux : ∀ (m r : Bytes), m ≠ [] → IsMod m → ∃ c t, m ++ r = c :: t ∧ isDigit c = false ∧ c ≠ 46 := by
        intro m r hne hm
        cases m with
        | nil => exact absurd rfl hne
        | cons c m => exact ⟨c, m ++ r, rfl, mod_digit hm c (by simp), (hm c (by simp)).2⟩
      cases hps : k.parts with
      | nil =>
        rcases h.some with h0 | h0 | h0
        · exact absurd hlead h0
        · exact absurd hps h0
        · simpa using aux k.last s h0 h.last
      | cons p ps =>
        have hp := h.parts p (by simp [hps])
        simp only [List.flatMap_cons, List.append_assoc]
        exact aux _ _ hp.1 hp.2.1
    obtain ⟨j, rfl⟩ : ∃ j, n = j + 1 := ⟨n - 1, by omega⟩
    rw [e, first c r j hd hc, ← e, item_parts h.last hs k.parts h.parts (j + 1) _ (by simp) hn]
    simp
  · have hl : 0 < k.lead.length := List.length_pos_iff.mpr hlead
    simp only [List.append_assoc, if_neg hlead] at hn ⊢
    obtain ⟨j, rfl⟩ : ∃ j, n = j + 1 := ⟨n - 1, by omega⟩
    rw [item_digits hlead h.lead j [] [] hnd, item_parts h.last hs k.parts h.parts j _ (by simp) (by simp only [List.length_append] at hn ⊢; omega)]
    simp

theorem comp_ne_nil {k : Comp} (h : k.WF) : k.text ≠ [] := by
  unfold Comp.text
  rcases h.some with h0 | h0 | h0
  · simp [h0]
  · obtain ⟨p, ps, e⟩ : ∃ p ps, k.parts = p :: ps := by
      cases e : k.parts with
      | nil => exact absurd e h0
      | cons p ps => exact ⟨p, ps, rfl⟩
    have := (h.parts p (by simp [e])).1
    simp [e, this]
  · simp [h0]

theorem explodeLoop_comps : ∀ (ks : List Comp), (∀ k ∈ ks, k.WF) → ∀ n, (dotJoin (ks.map Comp.text)).length ≤ n →
    explodeLoop n (dotJoin (ks.map Comp.text)) = ks.map Comp.value := by
  intro ks
  induction ks with
  | nil => intro _ n _; cases n <;> simp [dotJoin, explodeLoop]
  | cons k ks ih =>
    intro h n hn
    have hk := h k (by simp)
    have hne := comp_ne_nil hk
    have hpos : 0 < k.text.length := List.length_pos_iff.mpr hne
    cases ks with
    | nil =>
      simp only [List.map_cons, List.map_nil, dotJoin] at hn ⊢
      obtain ⟨j, rfl⟩ : ∃ j, n = j + 1 := ⟨n - 1, by omega⟩
      have := item_comp hk (s := []) (.inl rfl) (n := k.text.length + 1) (Nat.le_refl _)
      rw [List.append_nil] at this
      rw [explodeLoop, if_neg hne]
      dsimp only
      rw [this]
      cases j <;> simp [explodeLoop]
    | cons k' ks =>
      have ih' := ih fun x hx => h x (by simp [hx])
      have e : dotJoin ((k :: k' :: ks).map Comp.text) = k.text ++ 46 :: dotJoin ((k' :: ks).map Comp.text) := rfl
      rw [e] at hn ⊢
      obtain ⟨j, rfl⟩ : ∃ j, n = j + 1 := ⟨n - 1, by simp only [List.length_append] at hn; omega⟩
      rw [explodeLoop, if_neg (by simp)]
      dsimp only
      rw [item_comp hk (.inr rfl) (by simp only [List.length_append]; omega)]
      simp only [List.head?_cons, if_true, List.tail_cons]
      rw [ih' j (by simp only [List.length_append, List.length_cons] at hn; omega)]
      simp

/-- **C160**: a version is compared by the numbers and modifiers of its components. -/
theorem C160_explode (ks : List Comp) (h : ∀ k ∈ ks, k.WF) (t : Bytes) : ProductToken.sortkey ⟨t, some (dotJoin (ks.map Comp.text))⟩ = (t, ks.map Comp.value) := by
  simp only [ProductToken.sortkey, explode]
  rw [explodeLoop_comps ks h _ (Nat.le_refl _)]

/-- A version in dotted decimal notation. -/
def dotted (ns : List Nat) : Bytes := dotJoin (ns.map decStr)

theorem isRun_decStr (n : Nat) : IsRun (decStr n) := by
  intro c hc
  have := decStr_isDigit n c hc
  simp only [isDigit, Bool.and_eq_true, decide_eq_true_eq] at this
  exact this

/-- The component that is a number. -/
def numComp (n : Nat) : Comp := ⟨decStr n, [], []⟩

theorem numComp_wf (n : Nat) : (numComp n).WF :=
  ⟨isRun_decStr n, by simp [numComp], by simp [numComp, IsMod], .inl (decStr_ne_nil n)⟩

theorem numComp_value (n : Nat) : (numComp n).value = [.num n, .str [126]] := by
  simp [numComp, Comp.value, decStr_ne_nil, decVal_decStr]

theorem dotted_eq (ns : List Nat) : dotted ns = dotJoin ((ns.map numComp).map Comp.text) := by
  unfold dotted
  congr 1
  rw [List.map_map]
  apply List.map_congr_left
  intro n _
  simp [numComp, Comp.text]

theorem cmpStr_self (s : Bytes) : cmpStr s s = some .eq := (cmpStr_lawful.eq s s trivial trivial).mpr rfl

/-- **C160**: of two versions in dotted decimal notation the one that is less in the lexicographic order of the numbers is less:
1.0.3 comes before 1.0.10. -/
theorem C160_dotted (t : Bytes) (ns ms : List Nat) :
    (ProductToken.cmp ⟨t, some (dotted ns)⟩ ⟨t, some (dotted ms)⟩ = some .lt ↔ ns < ms) ∧
    (ProductToken.cmp ⟨t, some (dotted ns)⟩ ⟨t, some (dotted ms)⟩ = some .eq ↔ ns = ms) := by
  have hwf : ∀ l : List Nat, ∀ k ∈ l.map numComp, k.WF := by
    intro l k hk
    obtain ⟨n, _, rfl⟩ := List.mem_map.mp hk
    exact numComp_wf n
  unfold ProductToken.cmp
  rw [dotted_eq, dotted_eq, C160_explode _ (hwf ns), C160_explode _ (hwf ms)]
  dsimp only
  rw [cmpStr_self]
  dsimp only
  induction ns generalizing ms with
  | nil =>
    cases ms with
    | nil => simp [cmpList]
    | cons m ms => simp [cmpList]
  | cons n ns ih =>
    cases ms with
    | nil => simp [cmpList]
    | cons m ms =>
      simp only [List.map_cons, numComp_value, cmpList, cmpAtom]
      rcases Nat.lt_trichotomy n m with h | h | h
      · have : compare (n : Int) m = .lt := compare_lt_iff_lt.mpr (by omega)
        have hne : ¬ n = m := by omega
        simp [this, List.cons_lt_cons_iff, h, hne]
      · subst h
        have : compare (n : Int) n = .eq := compare_eq_iff_eq.mpr rfl
        simp only [this, cmpStr_self]
        have := ih ms
        rw [this.1, this.2]
        simp [List.cons_lt_cons_iff]
      · have : compare (n : Int) m = .gt := compare_gt_iff_gt.mpr (by omega)
        have hne : ¬ n = m := by omega
        have hnl : ¬ n < m := by omega
        simp [this, List.cons_lt_cons_iff, hne, hnl]

/-- **C160**: a version with a modifier after its last number comes before the version without it (1.0a before 1.0), if the
modifier comes before `~`; a version comes before its subversions (1.0 before 1.0.3a3); numbers in modifiers are compared as numbers
(1.0.3a3 before 1.0.3a20). -/
theorem C160_modifiers (t : Bytes) (ks : List Comp) (hks : ∀ k ∈ ks, k.WF) (n : Nat) :
    (∀ (m : Nat) (ms : Bytes), IsMod (m :: ms) → m < 126 →
      ProductToken.cmp ⟨t, some (dotJoin (ks.map Comp.text ++ [decStr n ++ m :: ms]))⟩ ⟨t, some (dotJoin (ks.map Comp.text ++ [decStr n]))⟩ = some .lt) ∧
    (∀ (k : Comp), k.WF →
      ProductToken.cmp ⟨t, some (dotJoin (ks.map Comp.text ++ [decStr n]))⟩ ⟨t, some (dotJoin (ks.map Comp.text ++ [decStr n, k.text]))⟩ = some .lt) ∧
    (∀ (m : Nat) (ms : Bytes) (a b : Nat), IsMod (m :: ms) → a < b →
      ProductToken.cmp ⟨t, some (dotJoin (ks.map Comp.text ++ [decStr n ++ (m :: ms) ++ decStr a]))⟩
        ⟨t, some (dotJoin (ks.map Comp.text ++ [decStr n ++ (m :: ms) ++ decStr b]))⟩ = some .lt) := by
  have hcommon : ∀ (l : List Comp) (x y : List (List VAtom)), (∀ k ∈ l, k.WF) → cmpList (cmpList cmpAtom) x y = some .lt →
      cmpList (cmpList cmpAtom) (l.map Comp.value ++ x) (l.map Comp.value ++ y) = some .lt := by
    intro l x y
    induction l with
    | nil => intro _ h; exact h
    | cons k l ih =>
      intro hl h
      have halt : Alt IsNum IsStr k.value := by
        have := item_comp (hl k (by simp)) (s := []) (.inl rfl) (Nat.le_refl _)
        rw [show k.value = (explodeItem (k.text.length + 1) [] [] (k.text ++ [])).1 by rw [this]]
        exact explodeItem_alt _ _ _ _ trivial (fun _ => rfl) (by simp) (fun _ h => absurd rfl h)
      have : cmpList cmpAtom k.value k.value = some .eq := ((cmpList_lawful lawful_num lawful_str).eq _ _ halt halt).mpr rfl
      simp only [List.map_cons, List.cons_append, cmpList, this]
      exact ih (fun q hq => hl q (by simp [hq])) h
  have main : ∀ (x y : List Comp), (∀ k ∈ x, k.WF) → (∀ k ∈ y, k.WF) → cmpList (cmpList cmpAtom) (x.map Comp.value) (y.map Comp.value) = some .lt →
      ProductToken.cmp ⟨t, some (dotJoin (ks.map Comp.text ++ x.map Comp.text))⟩ ⟨t, some (dotJoin (ks.map Comp.text ++ y.map Comp.text))⟩ = some .lt := by
    intro x y hx hy h
    have e : ∀ z : List Comp, (∀ k ∈ z, k.WF) → ProductToken.sortkey ⟨t, some (dotJoin (ks.map Comp.text ++ z.map Comp.text))⟩ = (t, ks.map Comp.value ++ z.map Comp.value) := by
      intro z hz
      rw [← List.map_append, C160_explode _ (by
        intro k hk
        rcases List.mem_append.mp hk with hk | hk
        · exact hks k hk
        · exact hz k hk), List.map_append]
    unfold ProductToken.cmp
    rw [e x hx, e y hy]
    dsimp only
    rw [cmpStr_self]
    exact hcommon ks _ _ hks h
  have t1 : ∀ n, (numComp n).text = decStr n := by intro n; simp [numComp, Comp.text]
  have c0 : compare (n : Int) n = .eq := compare_eq_iff_eq.mpr rfl
  refine ⟨?_, ?_, ?_⟩
  · intro m ms hm hlt
    have := main [⟨decStr n, [], m :: ms⟩] [numComp n] (by
      intro k hk
      rw [List.mem_singleton.mp hk]
      exact ⟨isRun_decStr n, by simp, hm, .inl (decStr_ne_nil n)⟩) (by
      intro k hk
      rw [List.mem_singleton.mp hk]
      exact numComp_wf n) (by
      have c1 : compare m 126 = .lt := compare_lt_iff_lt.mpr hlt
      simp [Comp.value, numComp, decStr_ne_nil, decVal_decStr, cmpList, cmpAtom, c0, cmpStr, c1])
    simpa [numComp, Comp.text] using this
  · intro k hk
    have := main [numComp n] [numComp n, k] (by
      intro j hj
      rw [List.mem_singleton.mp hj]
      exact numComp_wf n) (by
      intro j hj
      simp only [List.mem_cons, List.not_mem_nil, or_false] at hj
      rcases hj with rfl | rfl
      · exact numComp_wf n
      · exact hk) (by
      simp only [List.map_cons, List.map_nil, numComp_value, cmpList, cmpAtom, c0, cmpStr_self])
    simpa [t1] using this
  · intro m ms a b hm hab
    have wf : ∀ x, Comp.WF ⟨decStr n, [(m :: ms, decStr x)], []⟩ := by
      intro x
      refine ⟨isRun_decStr n, ?_, by simp [IsMod], .inl (decStr_ne_nil n)⟩
      intro p hp
      rw [List.mem_singleton.mp hp]
      exact ⟨by simp, hm, decStr_ne_nil x, isRun_decStr x⟩
    have := main [⟨decStr n, [(m :: ms, decStr a)], []⟩] [⟨decStr n, [(m :: ms, decStr b)], []⟩] (by
      intro k hk
      rw [List.mem_singleton.mp hk]
      exact wf a) (by
      intro k hk
      rw [List.mem_singleton.mp hk]
      exact wf b) (by
      have c1 : compare (a : Int) b = .lt := compare_lt_iff_lt.mpr (by omega)
      simp [Comp.value, decStr_ne_nil, decVal_decStr, cmpList, cmpAtom, c0, cmpStr_self, c1])
    simpa [Comp.text] using this

/-- Different texts may be equal versions: 1.01 and 1.1, 1 and `1.`, 1.0 and `1.0~`. -/
theorem C160_equal_versions : ProductToken.cmp ⟨[80], some [49, 46, 48, 49]⟩ ⟨[80], some [49, 46, 49]⟩ = some .eq ∧
    ProductToken.cmp ⟨[80], some [49]⟩ ⟨[80], some [49, 46]⟩ = some .eq ∧
    ProductToken.cmp ⟨[80], some [49, 46, 48]⟩ ⟨[80], some [49, 46, 48, 126]⟩ = some .eq := by decide +kernel

/-- The example of the documentation: 1.0a < 1.0 < 1.0.3a3 < 1.0.3a20 < 1.0.3b1 < 1.0.3. -/
example : ProductToken.cmp ⟨[80], some [49, 46, 48, 97]⟩ ⟨[80], some [49, 46, 48]⟩ = some .lt ∧
    ProductToken.cmp ⟨[80], some [49, 46, 48]⟩ ⟨[80], some [49, 46, 48, 46, 51, 97, 51]⟩ = some .lt ∧
    ProductToken.cmp ⟨[80], some [49, 46, 48, 46, 51, 97, 51]⟩ ⟨[80], some [49, 46, 48, 46, 51, 97, 50, 48]⟩ = some .lt ∧
    ProductToken.cmp ⟨[80], some [49, 46, 48, 46, 51, 97, 50, 48]⟩ ⟨[80], some [49, 46, 48, 46, 51, 98, 49]⟩ = some .lt ∧
    ProductToken.cmp ⟨[80], some [49, 46, 48, 46, 51, 98, 49]⟩ ⟨[80], some [49, 46, 48, 46, 51]⟩ = some .lt := by decide +kernel

end Verif.Http
