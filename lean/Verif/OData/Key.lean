import Verif.OData.C61
import Verif.Uri.EscapeProps
import Verif.Text.Utf8
import Mathlib.Data.List.Forall2
/-!
# Model of key predicates: `pyslet/odata2/core.py`, `ODataURI.format_key_dict` and `ODataURI.split_segment`
-/
namespace Verif.OData

open Verif.Text
open Verif.Uri (escapeData unescapeData unescapeLoop)
open Verif.Iso (YMD Clock Zone timePoint fmtInt fmt2 dg parts)

/-- "name=literal", core.py:2381. -/
def keyItem (kv : Str × Val) : Option Str := (formatLit kv.2).map fun t => kv.1 ++ 61 :: t

/-- The text of a key predicate before escaping, core.py:2376-2382: the name is left out if there is one key only. -/
def keyText (d : List (Str × Val)) : Option Str :=
  match d with
  | [(_, v)] => (formatLit v).map fun t => 40 :: t ++ [41]
  | d => (allSome (d.map keyItem)).map fun ts => 40 :: joinComma ts ++ [41]

/-- `format_key_dict`, core.py:2372-2383, for a dictionary given by its items. -/
def formatKey (d : List (Str × Val)) : Option Str := do
  let t ← keyText d
  let b ← utf8Encode t
  return escapeData b

/-- The loop of core.py:2325-2342; `q` is `qmode`. -/
def keyLoop (q : Bool) (kname vstr : Str) : Str → List (Str × Str)
  | [] => if vstr ≠ [] ∨ kname ≠ [] then [(kname, vstr)] else []
  | c :: r =>
    let q' := if c = 39 then !q else q
    if c = 44 ∧ q' = false then (kname, vstr) :: keyLoop q' [] [] r
    else if c = 61 ∧ q' = false then keyLoop q' vstr [] r
    else keyLoop q' kname (vstr ++ [c]) r

/-- `uri_literal_from_str`, core.py:1847-1855: unescapes once more. -/
def uriLiteral (ids : Ids) (t : Str) : Option Val := do
  let b ← unescapeData t
  let s ← utf8Decode b
  match parseLit ids s with
  | .ok v [] => some v
  | _ => none

/-- `d[k] = v`. -/
def put (d : List (Str × Val)) (k : Str) (v : Val) : List (Str × Val) :=
  if d.any (fun kv => kv.1 = k) then d.map fun kv => if kv.1 = k then (k, v) else kv else d ++ [(k, v)]

/-- The dictionary of several keys, core.py:2349-2356. -/
def keyDict (ids : Ids) : List (Str × Val) → List (Str × Str) → Option (List (Str × Val))
  | d, [] => some d
  | d, (k, t) :: r => if k = [] then none else do keyDict ids (put d k (← uriLiteral ids t)) r

/-- The keys of a segment, core.py:2344-2357. -/
def keyValues (ids : Ids) (ks : List (Str × Str)) : Option (List (Str × Val)) :=
  match ks with
  | [] => some []
  | [(k, t)] => (uriLiteral ids t).map fun v => [(k, v)]
  | ks => keyDict ids [] ks

/-- `split_segment`, core.py:2312-2359: the name and the keys; `none` is an exception. -/
def splitSegment (ids : Ids) (segment : Str) : Option (Str × Option (List (Str × Val))) := do
  let b ← unescapeData segment
  let s ← utf8Decode b
  if s.head? = some 36 then return (s, none)
  else if 40 ∈ s ∧ s.getLast? = some 41 then do
    let ks ← keyValues ids (keyLoop false [] [] ((s.dropWhile (· ≠ 40)).tail.dropLast))
    return (s.takeWhile (· ≠ 40), some ks)
  else return (s, none)

/-! ### Literals inside key predicates -/

/-- Scanning for quotes: `none` if there is a comma or an equals sign outside quotes, otherwise whether the text
ends inside quotes. -/
def scan : Bool → Str → Option Bool
  | q, [] => some q
  | q, c :: r =>
    let q' := if c = 39 then !q else q
    if (c = 44 ∨ c = 61) ∧ q' = false then none else scan q' r

theorem scan_append (q : Bool) (s t : Str) : scan q (s ++ t) = (scan q s).bind fun q' => scan q' t := by
  induction s generalizing q with
  | nil => rfl
  | cons c s ih =>
    rw [List.cons_append, scan, scan]
    by_cases h : (c = 44 ∨ c = 61) ∧ (if c = 39 then !q else q) = false
    · rw [if_pos h, if_pos h]; rfl
    · rw [if_neg h, if_neg h, ih]

theorem scan_plain (q : Bool) (s : Str) (h : ∀ c ∈ s, c ≠ 39 ∧ (q = true ∨ c ≠ 44 ∧ c ≠ 61)) : scan q s = some q := by
  induction s with
  | nil => rfl
  | cons c s ih =>
    have hc := h c (List.mem_cons_self ..)
    rw [scan]
    rw [if_neg hc.1, if_neg]
    · exact ih (fun c hc => h c (List.mem_cons_of_mem _ hc))
    · rintro ⟨h1, h2⟩
      rcases hc.2 with h3 | h3
      · rw [h2] at h3; cases h3
      · omega

theorem scan_quoted {pre t : Str} (hp : ∀ c ∈ pre, c ≠ 39 ∧ c ≠ 44 ∧ c ≠ 61) (ht : scan true t = some true) :
    scan false (pre ++ 39 :: t ++ [39]) = some false := by
  rw [List.append_assoc, scan_append, scan_plain false pre (fun c hc => ⟨(hp c hc).1, .inr (hp c hc).2⟩)]
  show scan false (39 :: (t ++ [39])) = _
  rw [scan]
  simp only [if_true, Bool.not_false, if_neg (show ¬((39 = 44 ∨ 39 = 61) ∧ true = false) by simp)]
  rw [scan_append, ht]
  rfl

theorem scan_quoteText (s : Str) : scan true (quoteText s) = some true := by
  induction s with
  | nil => rfl
  | cons c s ih =>
    have e : quoteText (c :: s) = (if c = 39 then [39, 39] else [c]) ++ quoteText s := by simp [quoteText, List.flatMap_cons]
    rw [e, scan_append]
    by_cases h : c = 39
    · rw [if_pos h]; exact ih
    · rw [if_neg h, scan_plain true [c] (by intro d hd; simp at hd; subst hd; exact ⟨h, .inl rfl⟩)]
      exact ih

/-- A printable character other than a quote, a comma, an equals sign and a percent sign. -/
def Mild (c : Nat) : Prop := c < 128 ∧ c ≠ 37 ∧ c ≠ 39 ∧ c ≠ 44 ∧ c ≠ 61

instance (c : Nat) : Decidable (Mild c) := by unfold Mild; infer_instance

theorem mild_digit {c : Nat} (h : isDigit c = true) : Mild c := by
  simp [isDigit] at h; unfold Mild; omega

theorem mild_decStr (k : Nat) : ∀ c ∈ decStr k, Mild c := fun c h => mild_digit (decStr_isDigit k c h)

theorem mild_intStr (n : Int) : ∀ c ∈ intStr n, Mild c := by
  intro c hc
  unfold intStr at hc
  split at hc
  · rcases List.mem_cons.1 hc with rfl | h
    · decide
    · exact mild_decStr _ c h
  · exact mild_decStr _ c hc

theorem mild_fmt (n : Int) (h : 0 ≤ n ∧ n ≤ 99) : ∀ c ∈ fmtInt 2 n, Mild c := by
  rw [fmt2 n h]
  intro c hc
  simp only [List.mem_cons, List.not_mem_nil, or_false] at hc
  rcases hc with rfl | rfl <;> (simp only [dg, Mild]; omega)

theorem mild_append {s t : Str} (hs : ∀ c ∈ s, Mild c) (ht : ∀ c ∈ t, Mild c) : ∀ c ∈ s ++ t, Mild c := by
  intro c hc
  rcases List.mem_append.1 hc with h | h
  · exact hs c h
  · exact ht c h

theorem mild_cons {a : Nat} {t : Str} (ha : Mild a) (ht : ∀ c ∈ t, Mild c) : ∀ c ∈ a :: t, Mild c := by
  intro c hc
  rcases List.mem_cons.1 hc with rfl | h
  · exact ha
  · exact ht c h

theorem mild_date (t : YMD) (h : t.Valid) : ∀ c ∈ dateText t, Mild c := by
  have ⟨p1, p2, p3, p4, p5⟩ := parts h
  exact mild_append (mild_fmt _ p1) (mild_append (mild_fmt _ p2) (mild_cons (by decide) (mild_append (mild_fmt _ p3)
    (mild_cons (by decide) (mild_fmt _ p4)))))

theorem mild_clock (c : Clock) (hc : c.Valid) : ∀ x ∈ clockText c, Mild x := by
  have ⟨h1, h2, h3⟩ := clock_ranges hc
  exact mild_append (mild_fmt _ h1) (mild_cons (by decide) (mild_append (mild_fmt _ h2) (mild_cons (by decide)
    (mild_fmt _ h3))))

theorem mild_zone (z : Zone) (hz : z.Valid) : ∀ x ∈ zoneText z, Mild x := by
  cases z with
  | unspecified => simp [zoneText]
  | utc => simp only [zoneText]; decide
  | east n =>
    simp only [Zone.Valid] at hz
    exact mild_cons (by decide) (mild_append (mild_fmt _ (by omega)) (mild_cons (by decide) (mild_fmt _ (by omega))))
  | west n =>
    simp only [Zone.Valid] at hz
    exact mild_cons (by decide) (mild_append (mild_fmt _ (by omega)) (mild_cons (by decide) (mild_fmt _ (by omega))))

theorem mild_hexLow {n : Nat} (h : n < 16) : Mild (hexLow n) := by
  unfold hexLow Mild; split <;> omega

theorem mild_hexPad (w n : Nat) : ∀ c ∈ hexPad w n, Mild c := by
  induction w generalizing n with
  | zero => simp [hexPad]
  | succ w ih =>
    rw [hexPad]
    exact mild_append (ih _) (mild_cons (mild_hexLow (by omega)) (by simp))

theorem mild_guid (n : Nat) : ∀ c ∈ guidText n, Mild c := by
  have h := mild_hexPad 32 n
  have ht : ∀ i j, ∀ c ∈ ((hexPad 32 n).drop i).take j, Mild c := fun i j c hc =>
    h c (List.mem_of_mem_drop (List.mem_of_mem_take hc))
  unfold guidText
  dsimp only
  refine mild_append (mild_append (mild_append (mild_append (fun c hc => h c (List.mem_of_mem_take hc))
    (mild_cons (by decide) (ht _ _))) (mild_cons (by decide) (ht _ _))) (mild_cons (by decide) (ht _ _)))
    (mild_cons (by decide) (fun c hc => h c (List.mem_of_mem_drop hc)))

theorem mild_hex2 (b : List Nat) (hb : ∀ x ∈ b, x < 256) : ∀ c ∈ b.flatMap hex2, Mild c := by
  intro c hc
  rw [List.mem_flatMap] at hc
  obtain ⟨x, hx, hc⟩ := hc
  have hx := hb x hx
  simp only [hex2, List.mem_cons, List.not_mem_nil, or_false] at hc
  rcases hc with rfl | rfl <;> (unfold Uri.hexDigit Mild; split <;> omega)

/-- Literals of any type but String have a simple text. -/
theorem legal_text {v : Val} (h : Legal v) (hs : ∀ s, v ≠ .str s) :
    ∃ t, formatLit v = some t ∧ t ≠ [] ∧ ((∀ c ∈ t, Mild c) ∨
      ∃ p u, t = p ++ 39 :: u ++ [39] ∧ (∀ c ∈ p, Mild c) ∧ ∀ c ∈ u, Mild c) := by
  have ne1 : ∀ (s : Str) (a : Nat), s ++ [a] ≠ [] := by simp
  have nei : ∀ n, intStr n ≠ [] := by
    intro n; unfold intStr; split
    · simp
    · exact decStr_ne_nil _
  cases h with
  | null => exact ⟨_, rfl, by decide, .inl (by decide)⟩
  | bool b => cases b <;> exact ⟨_, rfl, by decide, .inl (by decide)⟩
  | byte n hn => exact ⟨_, rfl, decStr_ne_nil _, .inl (mild_decStr _)⟩
  | sbyte n hn => exact ⟨_, rfl, nei _, .inl (mild_intStr _)⟩
  | i16 n hn => exact ⟨_, rfl, nei _, .inl (mild_intStr _)⟩
  | i32 n hn => exact ⟨_, rfl, nei _, .inl (mild_intStr _)⟩
  | i64 n hn => exact ⟨_, rfl, ne1 _ _, .inl (mild_append (mild_intStr _) (by decide))⟩
  | dec neg coef scale hsc hc =>
    have ⟨h1, h2⟩ := dec_lengths hc
    refine ⟨decText neg coef scale ++ [77], by simp [formatLit, hsc, h1], ne1 _ _, .inl (mild_append ?_ (by decide))⟩
    unfold decText
    refine mild_append (by cases neg <;> decide) ?_
    split
    · exact mild_decStr _
    · exact mild_append (mild_decStr _) (mild_cons (by decide) (fun c hc => mild_digit (decPad_isDigit _ _ c hc)))
  | str s => exact absurd rfl (hs s)
  | bin b hb hx => exact ⟨_, rfl, ne1 _ _, .inr ⟨_, _, rfl, by decide, mild_hex2 b hx⟩⟩
  | guid n hn => exact ⟨_, rfl, ne1 _ _, .inr ⟨_, _, rfl, by decide, mild_guid n⟩⟩
  | dt ht hc =>
    rename_i t c
    exact ⟨wrap (chars "datetime") (dateText t ++ 84 :: clockText c), by simp [formatLit, dt_string], ne1 _ _,
      .inr ⟨_, _, rfl, by decide, mild_append (mild_date t ht) (mild_cons (by decide) (mild_clock c hc))⟩⟩
  | dto ht hc hz hu =>
    rename_i t c z
    exact ⟨wrap (chars "datetimeoffset") (dateText t ++ 84 :: (clockText c ++ zoneText (offsetZone z))),
      by simp [formatLit, dtoText_eq c hc z hz hu], ne1 _ _,
      .inr ⟨_, _, rfl, by decide, mild_append (mild_date t ht) (mild_cons (by decide) (mild_append (mild_clock c hc)
        (mild_zone _ (offsetZone_valid hz))))⟩⟩
  | time hc =>
    rename_i c
    exact ⟨wrap (chars "time") (clockText c), by simp [formatLit, time_string], ne1 _ _,
      .inr ⟨_, _, rfl, by decide, mild_clock c hc⟩⟩

/-- ASCII text without percent signs. -/
def Plain (s : Str) : Prop := ∀ c ∈ s, c < 128 ∧ c ≠ 37

instance (s : Str) : Decidable (Plain s) := by unfold Plain; infer_instance

theorem Plain.append {s t : Str} (hs : Plain s) (ht : Plain t) : Plain (s ++ t) := by
  intro c hc
  rcases List.mem_append.1 hc with h | h
  · exact hs c h
  · exact ht c h

theorem plain_mild {s : Str} (h : ∀ c ∈ s, Mild c) : Plain s := fun c hc => ⟨(h c hc).1, (h c hc).2.1⟩

theorem plain_cons {a : Nat} {t : Str} (ha : a < 128 ∧ a ≠ 37) (ht : Plain t) : Plain (a :: t) := by
  intro c hc
  rcases List.mem_cons.1 hc with rfl | h
  · exact ha
  · exact ht c h

/-- Keys that survive being unescaped twice: Strings must be ASCII and free of percent signs. -/
def KeySafe (v : Val) : Prop := ∀ s, v = .str s → Plain s

theorem legal_scan {v : Val} (h : Legal v) (hs : KeySafe v) :
    ∃ t, formatLit v = some t ∧ t ≠ [] ∧ Plain t ∧ scan false t = some false := by
  by_cases hv : ∃ s, v = .str s
  · obtain ⟨s, rfl⟩ := hv
    refine ⟨39 :: quoteText s ++ [39], rfl, by simp, ?_, scan_quoted (pre := []) (by simp) (scan_quoteText s)⟩
    refine Plain.append (plain_cons (by decide) ?_) (by decide)
    intro c hc
    unfold quoteText at hc
    rw [List.mem_flatMap] at hc
    obtain ⟨x, hx, hc⟩ := hc
    have := hs s rfl x hx
    split at hc <;> simp at hc <;> subst hc
    · decide
    · exact this
  · obtain ⟨t, h1, h2, h3⟩ := legal_text h (fun s hs => hv ⟨s, hs⟩)
    refine ⟨t, h1, h2, ?_⟩
    rcases h3 with h3 | ⟨p, u, rfl, h3, h4⟩
    · exact ⟨plain_mild h3, scan_plain _ _ fun c hc => ⟨(h3 c hc).2.2.1, .inr (h3 c hc).2.2.2⟩⟩
    · refine ⟨Plain.append (Plain.append (plain_mild h3) (plain_cons (by decide) (plain_mild h4))) (by decide), ?_⟩
      exact scan_quoted (fun c hc => (h3 c hc).2.2) (scan_plain _ _ fun c hc => ⟨(h4 c hc).2.2.1, .inl rfl⟩)

/-! ### Encoding -/

theorem flatMap_encode {s : Str} (h : ∀ c ∈ s, c < 128) : s.flatMap encodeChar = s := by
  induction s with
  | nil => rfl
  | cons c s ih =>
    rw [List.flatMap_cons, ih (fun c hc => h c (List.mem_cons_of_mem _ hc))]
    have := h c (List.mem_cons_self ..)
    unfold encodeChar
    rw [if_pos this]; rfl

theorem scalar_ascii {c : Nat} (h : c < 128) : Scalar c := by unfold Scalar; omega

theorem utf8Encode_ascii {s : Str} (h : ∀ c ∈ s, c < 128) : utf8Encode s = some s := by
  unfold utf8Encode
  rw [if_pos, flatMap_encode h]
  rw [List.all_eq_true]
  intro c hc
  exact decide_eq_true (scalar_ascii (h c hc))

theorem utf8Decode_ascii {s : Str} (h : ∀ c ∈ s, c < 128) : utf8Decode s = some s :=
  utf8_round_trip s s (utf8Encode_ascii h)

theorem unescapeLoop_prefix {s : Str} (h : Plain s) (r : Str) : unescapeLoop .none (s ++ r) = s ++ unescapeLoop .none r := by
  induction s with
  | nil => rfl
  | cons c s ih =>
    rw [List.cons_append, unescapeLoop, if_neg (h c (List.mem_cons_self ..)).2,
      ih (fun c hc => h c (List.mem_cons_of_mem _ hc))]; rfl

theorem unescape_plain {s : Str} (h : Plain s) : unescapeData s = some s := by
  unfold unescapeData
  rw [if_pos]
  · have := unescapeLoop_prefix h []
    rw [List.append_nil] at this
    rw [this]; simp [unescapeLoop]
  · rw [List.all_eq_true]; intro c hc; simpa using (h c hc).1

theorem unescape_segment {n t : Str} (hn : Plain n) (ht : ∀ c ∈ t, c < 128) :
    unescapeData (n ++ escapeData t) = some (n ++ t) := by
  have h := Uri.C18_round_trip t (fun c hc => by have := ht c hc; omega) Uri.isReserved Uri.isAllowed Uri.isAllowed_ascii
  unfold unescapeData at h ⊢
  split at h
  · rename_i ha
    injection h with h
    rw [if_pos, unescapeLoop_prefix hn, h]
    rw [List.all_append, ha, Bool.and_true, List.all_eq_true]
    intro c hc; simpa using (hn c hc).1
  · cases h

theorem uriLiteral_legal (ids : Ids) {v : Val} (h : Legal v) (hs : KeySafe v) :
    ∃ t w, formatLit v = some t ∧ t ≠ [] ∧ Plain t ∧ scan false t = some false ∧ SameValue v w ∧
      uriLiteral ids t = some w := by
  obtain ⟨t, h1, h2, h3, h4⟩ := legal_scan h hs
  obtain ⟨t', w, h1', h5, h6⟩ := C61_uri_literal_round_trip ids h
  rw [h1] at h1'; cases h1'
  refine ⟨t, w, h1, h2, h3, h4, h5, ?_⟩
  have h7 := h6 [] (by simp [Stop])
  rw [List.append_nil] at h7
  unfold uriLiteral
  rw [unescape_plain h3]
  simp only [Option.bind_eq_bind, Option.bind_some]
  rw [utf8Decode_ascii (fun c hc => (h3 c hc).1)]
  simp only [Option.bind_some, h7]

/-! ### The loop -/

theorem keyLoop_scan {q q' : Bool} {s : Str} (h : scan q s = some q') (k v r : Str) :
    keyLoop q k v (s ++ r) = keyLoop q' k (v ++ s) r := by
  induction s generalizing q v with
  | nil => cases h; simp
  | cons c s ih =>
    rw [scan] at h
    by_cases hn : (c = 44 ∨ c = 61) ∧ (if c = 39 then !q else q) = false
    · rw [if_pos hn] at h; cases h
    · rw [if_neg hn] at h
      rw [List.cons_append, keyLoop]
      rw [if_neg (fun hh => hn ⟨.inl hh.1, hh.2⟩), if_neg (fun hh => hn ⟨.inr hh.1, hh.2⟩), ih h]
      simp

/-- A key name that can be written in front of a value. -/
def NameOk (k : Str) : Prop := k ≠ [] ∧ ∀ c ∈ k, Mild c

theorem keyLoop_item {k t : Str} (hk : NameOk k) (ht : scan false t = some false) (r : Str) :
    keyLoop false [] [] (k ++ 61 :: t ++ r) = keyLoop false k t r := by
  have h1 : scan false k = some false := scan_plain _ _ fun c hc => ⟨(hk.2 c hc).2.2.1, .inr (hk.2 c hc).2.2.2⟩
  rw [List.append_assoc, keyLoop_scan h1]
  show keyLoop false [] k (61 :: (t ++ r)) = _
  rw [keyLoop]
  have e := keyLoop_scan ht k [] r
  simpa using e

theorem keyLoop_comma (k t r : Str) : keyLoop false k t (44 :: r) = (k, t) :: keyLoop false [] [] r := by
  rw [keyLoop]
  simp

theorem keyLoop_items (ks : List (Str × Str)) (h : ∀ kt ∈ ks, NameOk kt.1 ∧ scan false kt.2 = some false) :
    keyLoop false [] [] (joinComma (ks.map fun kt => kt.1 ++ 61 :: kt.2)) = ks := by
  induction ks with
  | nil => rfl
  | cons a ks ih =>
    have ha := h a (List.mem_cons_self ..)
    have ih := ih (fun b hb => h b (List.mem_cons_of_mem _ hb))
    cases ks with
    | nil =>
      have := keyLoop_item ha.1 ha.2 []
      rw [List.append_nil] at this
      show keyLoop false [] [] (a.1 ++ 61 :: a.2) = [a]
      rw [this, keyLoop, if_pos (.inr ha.1.1)]
    | cons b ks =>
      show keyLoop false [] [] (a.1 ++ 61 :: a.2 ++ 44 :: joinComma ((b :: ks).map fun kt => kt.1 ++ 61 :: kt.2)) = _
      rw [keyLoop_item ha.1 ha.2, keyLoop_comma, ih]

theorem keyDict_put (ids : Ids) (ks : List (Str × Str)) (ws : List (Str × Val)) (d : List (Str × Val))
    (h : List.Forall₂ (fun kt kw => kt.1 = kw.1 ∧ uriLiteral ids kt.2 = some kw.2) ks ws) (hne : ∀ kt ∈ ks, kt.1 ≠ [])
    (hd : ((d.map (·.1)) ++ ks.map (·.1)).Nodup) : keyDict ids d ks = some (d ++ ws) := by
  induction h generalizing d with
  | nil => simp [keyDict]
  | cons hab h ih =>
    rename_i a b ks ws
    obtain ⟨ak, at'⟩ := a
    obtain ⟨bk, bw⟩ := b
    obtain ⟨rfl, h2⟩ := hab
    rw [keyDict, if_neg (hne (ak, at') (List.mem_cons_self ..))]
    simp only at h2
    rw [h2]
    simp only [Option.bind_eq_bind, Option.bind_some]
    have hp : put d ak bw = d ++ [(ak, bw)] := by
      unfold put
      rw [if_neg]
      intro hany
      rw [List.any_eq_true] at hany
      obtain ⟨kv, hkv, he⟩ := hany
      have he : kv.1 = ak := by simpa using he
      rw [List.nodup_append] at hd
      exact hd.2.2 kv.1 (List.mem_map_of_mem hkv) ak (by simp) he
    rw [hp, ih _ (fun kt hkt => hne kt (List.mem_cons_of_mem _ hkt))]
    · simp
    · simpa using hd

/-! ### C68 -/

/-- The name of an entity set as it is written in a path. -/
def SetName (n : Str) : Prop := Plain n ∧ 40 ∉ n ∧ n.head? ≠ some 36

/-- The keys read back are those written: in order, with the same names and values. -/
def SameKeys (d w : List (Str × Val)) : Prop :=
  List.Forall₂ (fun a b => a.1 = b.1 ∧ SameValue a.2 b.2) d w

theorem splitSegment_text (ids : Ids) {n t : Str} (hn : SetName n) (ht : Plain t) :
    splitSegment ids (n ++ escapeData (40 :: t ++ [41])) =
      (keyValues ids (keyLoop false [] [] t)).map fun w => (n, some w) := by
  have hp : Plain (40 :: t ++ [41]) := Plain.append (plain_cons (by decide) ht) (by decide)
  unfold splitSegment
  rw [unescape_segment hn.1 (fun c hc => (hp c hc).1)]
  simp only [Option.bind_eq_bind, Option.bind_some]
  rw [utf8Decode_ascii (fun c hc => ((Plain.append hn.1 hp) c hc).1)]
  simp only [Option.bind_some]
  have h1 : (n ++ (40 :: t ++ [41])).head? ≠ some 36 := by
    cases n with
    | nil => simp
    | cons a n => simpa using hn.2.2
  have h2 : 40 ∈ n ++ (40 :: t ++ [41]) ∧ (n ++ (40 :: t ++ [41])).getLast? = some 41 := by
    refine ⟨by simp, ?_⟩
    rw [← List.append_assoc, List.getLast?_concat]
  have key := takeWhile_stop (p := fun x => decide (x ≠ 40)) (w := n) (r := 40 :: t ++ [41])
    (fun x hx => by simp; rintro rfl; exact hn.2.1 hx) (fun x hx => by cases hx; rfl)
  rw [if_neg h1, if_pos h2, key.1, key.2]
  simp only [List.cons_append, List.tail_cons, List.dropLast_concat]
  cases keyValues ids (keyLoop false [] [] t) <;> rfl

theorem items_some (ids : Ids) (d : List (Str × Val)) (h : ∀ kv ∈ d, NameOk kv.1 ∧ Legal kv.2 ∧ KeySafe kv.2) :
    ∃ (ks : List (Str × Str)) (ws : List (Str × Val)), allSome (d.map keyItem) = some (ks.map fun kt => kt.1 ++ 61 :: kt.2) ∧
      (∀ kt ∈ ks, NameOk kt.1 ∧ scan false kt.2 = some false ∧ Plain kt.2) ∧
      List.Forall₂ (fun kt kw => kt.1 = kw.1 ∧ uriLiteral ids kt.2 = some kw.2) ks ws ∧ SameKeys d ws ∧
      ks.map (·.1) = d.map (·.1) := by
  induction d with
  | nil => exact ⟨[], [], rfl, by simp, .nil, .nil, rfl⟩
  | cons a d ih =>
    obtain ⟨k, v⟩ := a
    obtain ⟨ks, ws, h1, h2, h3, h4, h5⟩ := ih (fun b hb => h b (List.mem_cons_of_mem _ hb))
    have ⟨hk, hl, hs⟩ := h (k, v) (List.mem_cons_self ..)
    obtain ⟨t, w, g1, g2, g3, g4, g5, g6⟩ := uriLiteral_legal ids hl hs
    refine ⟨(k, t) :: ks, (k, w) :: ws, ?_, ?_, .cons ⟨rfl, g6⟩ h3, .cons ⟨rfl, g5⟩ h4, by simp [h5]⟩
    · have e : keyItem (k, v) = some (k ++ 61 :: t) := by
        unfold keyItem; dsimp only; rw [g1]; rfl
      rw [List.map_cons, e, allSome, h1]; rfl
    · intro kt hkt
      rcases List.mem_cons.1 hkt with rfl | hkt
      · exact ⟨hk, g4, g3⟩
      · exact h2 kt hkt

theorem plain_join (ks : List (Str × Str)) (h : ∀ kt ∈ ks, NameOk kt.1 ∧ Plain kt.2) :
    Plain (joinComma (ks.map fun kt => kt.1 ++ 61 :: kt.2)) := by
  induction ks with
  | nil => intro c hc; cases hc
  | cons a ks ih =>
    have ha := h a (List.mem_cons_self ..)
    have hp : Plain (a.1 ++ 61 :: a.2) := Plain.append (plain_mild ha.1.2) (plain_cons (by decide) ha.2)
    cases ks with
    | nil => exact hp
    | cons b ks => exact Plain.append hp (plain_cons (by decide) (ih fun b hb => h b (List.mem_cons_of_mem _ hb)))

/-- C68 for a single key: the value comes back under the empty name. -/
theorem C68_single_key_round_trip_partial (ids : Ids) {n : Str} (hn : SetName n) (k : Str) {v : Val} (hv : Legal v)
    (hs : KeySafe v) :
    ∃ u w, formatKey [(k, v)] = some u ∧ splitSegment ids (n ++ u) = some (n, some [([], w)]) ∧ SameValue v w := by
  obtain ⟨t, w, g1, g2, g3, g4, g5, g6⟩ := uriLiteral_legal ids hv hs
  have hp : Plain (40 :: t ++ [41]) := Plain.append (plain_cons (by decide) g3) (by decide)
  refine ⟨escapeData (40 :: t ++ [41]), w, ?_, ?_, g5⟩
  · unfold formatKey
    simp only [keyText, g1, Option.map_some, Option.bind_eq_bind, Option.bind_some]
    rw [utf8Encode_ascii (fun c hc => (hp c hc).1)]
    rfl
  · rw [splitSegment_text ids hn g3]
    have : keyLoop false [] [] t = [([], t)] := by
      have := keyLoop_scan g4 [] [] []
      rw [List.append_nil, List.nil_append] at this
      rw [this, keyLoop, if_pos (.inl g2)]
    rw [this]
    simp [keyValues, g6]

/-- C68.  A key predicate written for several keys is read back as the same names and values. -/
theorem C68_key_predicate_round_trip_partial (ids : Ids) {n : Str} (hn : SetName n) (d : List (Str × Val)) (h1 : d.length ≠ 1)
    (hd : (d.map (·.1)).Nodup) (h : ∀ kv ∈ d, NameOk kv.1 ∧ Legal kv.2 ∧ KeySafe kv.2) :
    ∃ u w, formatKey d = some u ∧ splitSegment ids (n ++ u) = some (n, some w) ∧ SameKeys d w := by
  obtain ⟨ks, ws, i1, i2, i3, i4, i5⟩ := items_some ids d h
  have hj := plain_join ks (fun kt hkt => ⟨(i2 kt hkt).1, (i2 kt hkt).2.2⟩)
  have hp : Plain (40 :: joinComma (ks.map fun kt => kt.1 ++ 61 :: kt.2) ++ [41]) :=
    Plain.append (plain_cons (by decide) hj) (by decide)
  refine ⟨escapeData (40 :: joinComma (ks.map fun kt => kt.1 ++ 61 :: kt.2) ++ [41]), ws, ?_, ?_, i4⟩
  · have e : keyText d = some (40 :: joinComma (ks.map fun kt => kt.1 ++ 61 :: kt.2) ++ [41]) := by
      unfold keyText
      split
      · exact absurd rfl h1
      · rw [i1]; rfl
    unfold formatKey
    rw [e]
    simp only [Option.bind_eq_bind, Option.bind_some]
    rw [utf8Encode_ascii (fun c hc => (hp c hc).1)]
    rfl
  · rw [splitSegment_text ids hn hj, keyLoop_items ks (fun kt hkt => ⟨(i2 kt hkt).1, (i2 kt hkt).2.1⟩)]
    have hkv : keyValues ids ks = some ws := by
      have hlen : ks.length = d.length := by
        have := congrArg List.length i5
        simpa using this
      unfold keyValues
      split
      · cases i3; rfl
      · rw [List.length_singleton] at hlen; exact absurd hlen.symm h1
      · have := keyDict_put ids ks ws [] i3 (fun kt hkt => (i2 kt hkt).1.1) (by rw [i5]; simpa using hd)
        simpa using this
    rw [hkv]; rfl

/-- Non-vacuity: a set with two keys, one a String with a quote, a comma and an equals sign. -/
example : SetName (chars "Orders") ∧
    (∀ kv ∈ [(chars "Name", Val.str (chars "O'N=,x")), (chars "ID", Val.i32 (-5))], NameOk kv.1 ∧ Legal kv.2 ∧ KeySafe kv.2) ∧
    formatKey [(chars "Name", Val.str (chars "O'N")), (chars "ID", Val.i32 (-5))] =
      some (chars "(Name%3D'O''N'%2CID%3D-5)") := by
  refine ⟨⟨by decide, by decide, by decide⟩, ?_, by decide +kernel⟩
  intro kv hkv
  simp only [List.mem_cons, List.not_mem_nil, or_false] at hkv
  rcases hkv with rfl | rfl
  · exact ⟨⟨by decide, by decide⟩, .str _, by intro s hs; cases hs; decide⟩
  · exact ⟨⟨by decide, by decide⟩, .i32 _ (by decide), by intro s hs; cases hs⟩

/-- Violation: the text of a key is unescaped twice, so that the String "%41" comes back as "A". -/
theorem C68_percent_violation :
    formatKey [(chars "ID", .str (chars "%41"))] = some (chars "('%2541')") ∧
    splitSegment asciiIds (chars "Orders('%2541')") = some (chars "Orders", some [([], .str (chars "A"))]) := by
  decide +kernel

/-- Violation: a String that is not ASCII is written, but an exception is raised when it is read. -/
theorem C68_non_ascii_violation :
    formatKey [(chars "ID", .str [233])] = some (chars "('%C3%A9')") ∧
    splitSegment asciiIds (chars "Orders('%C3%A9')") = none := by
  decide +kernel

end Verif.OData
