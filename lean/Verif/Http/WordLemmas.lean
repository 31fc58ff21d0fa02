import Verif.Http.Words
import Verif.Http.Params
import Verif.Http.QuoteProps
/-! # Lemmas about parameters -/
namespace Verif.Http
open Text (Step run run_eq)

theorem parseSep_length (c : Nat) (ws : List Word) : (parseSep c ws).2.length ≤ ws.length := by
  unfold parseSep
  split
  · split <;> simp
  · exact Nat.le_refl _

theorem requireSep_length {c : Nat} {ws ws' : List Word} (h : requireSep c ws = .ok ws') : ws'.length < ws.length := by
  unfold requireSep at h
  split at h
  · next hs =>
    cases h
    unfold parseSep at hs
    split at hs
    · split at hs <;> simp at hs; rw [hs]; simp
    · simp at hs
  · cases h

theorem wpToken_length (ws : List Word) : (wpToken ws).2.length ≤ ws.length := by
  unfold wpToken
  split
  · split <;> simp
  · exact Nat.le_refl _

theorem wpQuoted_length (ws : List Word) : (wpQuoted ws).2.length ≤ ws.length := by
  unfold wpQuoted
  split
  · split <;> simp
  · exact Nat.le_refl _

theorem requireToken_length {ws : List Word} {p : Bytes × List Word} (h : requireToken ws = .ok p) :
    p.2.length ≤ ws.length := by
  unfold requireToken at h
  have hl := wpToken_length ws
  split at h
  · next hs => cases h; rw [hs] at hl; exact hl
  · cases h

theorem parseSp_length (ws : List Word) : (parseSp ws).length ≤ ws.length := parseSep_length 32 ws

theorem paramStep_dec (ias cs : Bool) (q : Option Bytes) (ws : List Word) (a : Bytes × Bytes × Bytes) (r : List Word)
    (h : paramStep ias cs q ws = .emit a r) : r.length < ws.length := by
  unfold paramStep at h
  dsimp only at h
  have opt : ∀ ws : List Word, (optSp ias ws).length ≤ ws.length := by
    intro ws; unfold optSp; split
    · exact parseSp_length ws
    · exact Nat.le_refl _
  split at h
  · cases h
  next h1 =>
  have l1 := requireSep_length h1
  have l0 := parseSp_length ws
  split at h
  · cases h
  next ws1 _ name ws2 h2 =>
  have l2 := requireToken_length h2
  have l2' := parseSp_length ws1
  generalize (if cs then name else lowerText name) = key at h
  split at h
  · cases h
  split at h
  · cases h
  next ws3 h3 =>
  have l3 := requireSep_length h3
  have o2 := opt ws2
  have o3 := opt ws3
  simp only at l2
  generalize optSp ias ws3 = ws3' at h o3
  split at h
  · have lt := wpToken_length ws3'
    split at h
    · next hs => cases h; rw [hs] at lt; simp only at lt; omega
    · cases h
  · split at h
    · have lt := wpQuoted_length ws3'
      split at h
      · next hs => cases h; rw [hs] at lt; simp only at lt; omega
      · cases h
    · cases h

/-! ### specification of well formed parameters -/

/-- A name that is a token of ASCII characters. -/
def AsciiToken (n : Bytes) : Prop := n ≠ [] ∧ ∀ b ∈ n, TokByte b ∧ b < 128

/-- A dictionary of parameters as HTTP defines them: different keys, each the lower case form of the parameter's
name, which is a token; the values are non-empty byte strings. -/
def ValidParams (d : Params) : Prop :=
  (d.map (·.1)).Nodup ∧
    ∀ e ∈ d, AsciiToken e.2.1 ∧ e.1 = lowerText e.2.1 ∧ e.2.2 ≠ [] ∧ ∀ b ∈ e.2.2, b < 256

/-- What `format_parameters` writes for one parameter. -/
def piece (e : Bytes × Bytes × Bytes) : Bytes := [59, 32] ++ e.2.1 ++ [61] ++ quoteString e.2.2 false

theorem ascii_ok {s : Bytes} (h : ∀ b ∈ s, b < 128) : ascii s = .ok s := by
  unfold ascii
  rw [if_pos (by simpa using h)]

theorem format_fold (l : Params) (h : ∀ e ∈ l, ∀ b ∈ e.2.1, b < 128) : ∀ acc : Bytes,
    (l.foldlM (init := acc) fun acc e => do
      let n ← ascii e.2.1
      return acc ++ [59, 32] ++ n ++ [61] ++ quoteString e.2.2 false : Except Err Bytes) =
    .ok (acc ++ l.flatMap piece) := by
  induction l with
  | nil => intro acc; simp [pure, Except.pure]
  | cons e l ih =>
    intro acc
    rw [List.foldlM_cons, ascii_ok (h e (by simp))]
    simp only [bind, Except.bind, pure, Except.pure] at ih ⊢
    rw [ih fun e he => h e (by simp [he])]
    simp [piece]

/-- The parameters in the order in which they are written. -/
def sorted (d : Params) : Params := d.mergeSort fun a b => bytesLe a.1 b.1

theorem sorted_perm (d : Params) : (sorted d).Perm d := List.mergeSort_perm d _

theorem format_ok (d : Params) (h : ∀ e ∈ d, ∀ b ∈ e.2.1, b < 128) :
    formatParameters d = .ok ((sorted d).flatMap piece) := by
  unfold formatParameters
  have := format_fold (sorted d) (fun e he => h e ((sorted_perm d).mem_iff.mp he)) []
  simpa [sorted] using this

/-- The words of one written parameter. -/
def paramWords (ig : Bool) (n w : Bytes) : List Word :=
  .sep 59 :: (if ig then [] else [.sep 32]) ++ [.text n, .sep 61, .text w]

/-- The word `w` stands for the value `v`. -/
def ValueWord (w v : Bytes) : Prop := (w = v ∧ v ≠ [] ∧ ∀ b ∈ v, TokByte b) ∨ (w.head? = some 34 ∧ decodeQuotedString w = v)

theorem words_piece (ig : Bool) (e : Bytes × Bytes × Bytes) (rest : Bytes) (hn : AsciiToken e.2.1) (h0 : e.2.2 ≠ [])
    (hb : ∀ b ∈ e.2.2, b < 256) (hr : TokEnd rest) :
    ∃ w, ValueWord w e.2.2 ∧ words ig (piece e ++ rest) = (words ig rest).map (paramWords ig e.2.1 w ++ ·) := by
  obtain ⟨w, hw, hv⟩ := C25_noforce e.2.2 hb h0 ig rest hr
  refine ⟨w, hv.imp (fun h => ⟨h.1, h0, h.2⟩) id, ?_⟩
  obtain ⟨hn0, hn⟩ := hn
  have e1 : piece e ++ rest = 59 :: 32 :: (e.2.1 ++ (61 :: (quoteString e.2.2 false ++ rest))) := by
    simp [piece]
  rw [e1, words_sep ig 59 _ (by decide) (by decide) (by decide) (by decide) (by decide)]
  obtain ⟨b, t, hbt⟩ := List.exists_cons_of_ne_nil hn0
  have e2 : words ig (32 :: (e.2.1 ++ (61 :: (quoteString e.2.2 false ++ rest)))) =
      (words ig (e.2.1 ++ (61 :: (quoteString e.2.2 false ++ rest)))).map ((if ig then [] else [.sep 32]) ++ ·) := by
    rw [hbt, List.cons_append, words_sp ig b _ (tokByte_lws (hn b (by rw [hbt]; simp)).1)]
    cases ig
    · simp
    · simp
  rw [e2, words_token ig e.2.1 _ hn0 (fun b hb => (hn b hb).1) (tokEnd_cons (by decide)),
    words_sep ig 61 _ (by decide) (by decide) (by decide) (by decide) (by decide), hw]
  cases words ig rest with
  | none => rfl
  | some l => simp [paramWords]

theorem requireToken_tok {t : Bytes} {ws : List Word} (h0 : t ≠ []) (ht : ∀ b ∈ t, TokByte b) :
    requireToken (.text t :: ws) = .ok (t, ws) := by
  cases t with
  | nil => exact absurd rfl h0
  | cons b t =>
    simp [requireToken, wpToken, (ht b (by simp)).2]

theorem isToken_tok {t : Bytes} {ws : List Word} (h0 : t ≠ []) (ht : ∀ b ∈ t, TokByte b) :
    isToken (.text t :: ws) = true ∧ wpToken (.text t :: ws) = (some t, ws) := by
  cases t with
  | nil => exact absurd rfl h0
  | cons b t =>
    simp [isToken, wpToken, (ht b (by simp)).2]

theorem isQuoted_quoted {w : Bytes} {ws : List Word} (h : w.head? = some 34) :
    isToken (.text w :: ws) = false ∧ isQuoted (.text w :: ws) = true ∧
      wpQuoted (.text w :: ws) = (some (decodeQuotedString w), ws) := by
  cases w with
  | nil => cases h
  | cons b t =>
    simp only [List.head?_cons, Option.some.injEq] at h
    subst h
    exact ⟨rfl, rfl, rfl⟩

theorem parseSp_text (t : Bytes) (ws : List Word) : parseSp (.text t :: ws) = .text t :: ws := rfl
theorem parseSp_sep {c : Nat} (h : c ≠ 32) (ws : List Word) : parseSp (.sep c :: ws) = .sep c :: ws := by
  simp [parseSp, parseSep, h]
theorem parseSp_sp (ws : List Word) : parseSp (.sep 32 :: ws) = ws := rfl
theorem parseSp_nil : parseSp [] = [] := rfl
theorem requireSep_eq (c : Nat) (ws : List Word) : requireSep c (.sep c :: ws) = .ok ws := by
  simp [requireSep, parseSep]

theorem paramStep_words (ig ias : Bool) (e : Bytes × Bytes × Bytes) (w : Bytes) (ws : List Word)
    (hn : AsciiToken e.2.1) (hk : e.1 = lowerText e.2.1) (hw : ValueWord w e.2.2) :
    paramStep ias false none (paramWords ig e.2.1 w ++ ws) = .emit e ws := by
  obtain ⟨hn0, hn⟩ := hn
  have htok : ∀ b ∈ e.2.1, TokByte b := fun b hb => (hn b hb).1
  unfold paramStep
  have e1 : parseSp (paramWords ig e.2.1 w ++ ws) = paramWords ig e.2.1 w ++ ws := by
    simp only [paramWords, List.cons_append]
    exact parseSp_sep (by decide) _
  have e2 : requireSep 59 (paramWords ig e.2.1 w ++ ws) =
      .ok ((if ig then [] else [.sep 32]) ++ (.text e.2.1 :: .sep 61 :: .text w :: ws)) := by
    simp only [paramWords, List.cons_append]
    rw [requireSep_eq]
    simp
  have e3 : parseSp ((if ig then [] else [.sep 32]) ++ (.text e.2.1 :: .sep 61 :: .text w :: ws)) =
      .text e.2.1 :: .sep 61 :: .text w :: ws := by
    cases ig <;> rfl
  have o1 : optSp ias (.sep 61 :: .text w :: ws) = .sep 61 :: .text w :: ws := by
    cases ias <;> rfl
  have o2 : optSp ias (.text w :: ws) = .text w :: ws := by
    cases ias <;> rfl
  simp only [e1, e2, e3, requireToken_tok hn0 htok, o1, requireSep_eq, o2]
  have hq : ((none : Option Bytes).isSome && decide ((none : Option Bytes) ≠ some []) &&
      decide (none = some (lowerText e.2.1))) = false := by simp
  rcases hw with ⟨rfl, h0, ht⟩ | ⟨h34, hd⟩
  · obtain ⟨i1, i2⟩ := isToken_tok (ws := ws) h0 ht
    simp [i1, i2, ← hk]
  · obtain ⟨i1, i2, i3⟩ := isQuoted_quoted (ws := ws) h34
    simp [i1, i2, i3, ← hk, hd]

/-- What remains after the parameters: nothing, or something that is not a parameter. -/
def ParamsEnd (ias : Bool) (ws : List Word) : Prop := paramStep ias false none ws = .stop

theorem paramsEnd_nil (ias : Bool) : ParamsEnd ias [] := by cases ias <;> rfl

theorem words_pieces (ig ias : Bool) (l : Params) (hl : ∀ e ∈ l, AsciiToken e.2.1 ∧ e.1 = lowerText e.2.1 ∧
    e.2.2 ≠ [] ∧ ∀ b ∈ e.2.2, b < 256) :
    ∃ ws, words ig (l.flatMap piece) = some ws ∧ run (paramStep ias false none) List.length ws = some (l, []) ∧
      parseSp ws = ws := by
  induction l with
  | nil =>
    refine ⟨[], words_nil ig, ?_, rfl⟩
    rw [run_eq (paramStep_dec ias false none), paramsEnd_nil ias]
  | cons e l ih =>
    obtain ⟨ws, h1, h2, _⟩ := ih fun e he => hl e (by simp [he])
    obtain ⟨hn, hk, h0, hb⟩ := hl e (by simp)
    have hend : TokEnd (l.flatMap piece) := by
      cases l with
      | nil => exact tokEnd_nil
      | cons e' l' =>
        simp only [List.flatMap_cons, piece, List.cons_append, List.append_assoc]
        exact tokEnd_cons (by decide)
    obtain ⟨w, hw, hws⟩ := words_piece ig e (l.flatMap piece) hn h0 hb hend
    refine ⟨paramWords ig e.2.1 w ++ ws, by rw [List.flatMap_cons, hws, h1]; rfl, ?_, ?_⟩
    · rw [run_eq (paramStep_dec ias false none), paramStep_words ig ias e w ws hn hk hw]
      simp only
      rw [h2]; rfl
    · simp only [paramWords, List.cons_append]
      exact parseSp_sep (by decide) _

theorem dictSet_new (d : Params) (k : Bytes) (v : Bytes × Bytes) (h : k ∉ d.map (·.1)) : dictSet d k v = d ++ [(k, v)] := by
  unfold dictSet
  rw [if_neg]
  simp only [List.any_eq_true, beq_iff_eq, not_exists, not_and]
  intro e he hk
  exact h (List.mem_map.mpr ⟨e, he, hk⟩)

theorem dictSet_fold (l : Params) : ∀ d : Params, ((d ++ l).map (·.1)).Nodup →
    l.foldl (fun d e => dictSet d e.1 e.2) d = d ++ l := by
  induction l with
  | nil => intro d _; simp
  | cons e l ih =>
    intro d h
    rw [List.foldl_cons, dictSet_new, ih]
    · simp
    · simpa using h
    · intro hm
      simp only [List.map_append, List.map_cons, List.nodup_append] at h
      exact h.2.2 _ hm _ (List.mem_cons_self) rfl

theorem parse_formatted (ig ias : Bool) (d : Params) (h : ValidParams d) :
    ∃ s ws, formatParameters d = .ok s ∧ words ig s = some ws ∧ parseParameters [] ias false none ws = (sorted d, []) ∧
      TokEnd s ∧ parseSp ws = ws := by
  have hmem : ∀ e ∈ sorted d, AsciiToken e.2.1 ∧ e.1 = lowerText e.2.1 ∧ e.2.2 ≠ [] ∧ ∀ b ∈ e.2.2, b < 256 :=
    fun e he => h.2 e ((sorted_perm d).mem_iff.mp he)
  obtain ⟨ws, h1, h2, h3⟩ := words_pieces ig ias (sorted d) hmem
  refine ⟨(sorted d).flatMap piece, ws, format_ok d (fun e he b hb => ((h.2 e he).1.2 b hb).2), h1, ?_, ?_, h3⟩
  · unfold parseParameters
    rw [h3, h2]
    simp only
    rw [dictSet_fold]
    · simp
    · rw [List.nil_append]
      exact ((sorted_perm d).map _).nodup_iff.mpr h.1
  · cases sorted d with
    | nil => exact tokEnd_nil
    | cons e' l' =>
      simp only [List.flatMap_cons, piece, List.cons_append, List.append_assoc]
      exact tokEnd_cons (by decide)

/-! ### equality of parameter dictionaries -/

theorem pairLe_trans (a b c : Bytes × Bytes) (h1 : pairLe a b = true) (h2 : pairLe b c = true) : pairLe a c = true := by
  simp only [pairLe, Bool.or_eq_true, decide_eq_true_eq, Bool.and_eq_true, beq_iff_eq, bytesLe] at *
  rcases h1 with h1 | ⟨h1, h1'⟩
  · rcases h2 with h2 | ⟨h2, _⟩
    · exact .inl (List.lt_trans h1 h2)
    · exact .inl (h2 ▸ h1)
  · rcases h2 with h2 | ⟨h2, h2'⟩
    · exact .inl (h1 ▸ h2)
    · exact .inr ⟨h1.trans h2, List.le_trans h1' h2'⟩

theorem pairLe_total (a b : Bytes × Bytes) : (pairLe a b || pairLe b a) = true := by
  simp only [pairLe, Bool.or_eq_true, decide_eq_true_eq, Bool.and_eq_true, beq_iff_eq, bytesLe]
  by_cases h : a.1 < b.1
  · exact .inl (.inl h)
  · by_cases h' : b.1 < a.1
    · exact .inr (.inl h')
    · have he : a.1 = b.1 := List.le_antisymm (List.not_lt.mp h') (List.not_lt.mp h)
      rcases List.le_total a.2 b.2 with h2 | h2
      · exact .inl (.inr ⟨he, h2⟩)
      · exact .inr (.inr ⟨he.symm, h2⟩)

theorem pairLe_antisymm (a b : Bytes × Bytes) (h1 : pairLe a b = true) (h2 : pairLe b a = true) : a = b := by
  simp only [pairLe, Bool.or_eq_true, decide_eq_true_eq, Bool.and_eq_true, beq_iff_eq, bytesLe] at *
  rcases h1 with h1 | ⟨h1, h1'⟩
  · rcases h2 with h2 | ⟨h2, _⟩
    · exact absurd (List.lt_trans h1 h2) (List.lt_irrefl _)
    · rw [h2] at h1; exact absurd h1 (List.lt_irrefl _)
  · rcases h2 with h2 | ⟨h2, h2'⟩
    · rw [h1] at h2; exact absurd h2 (List.lt_irrefl _)
    · exact Prod.ext h1 (List.le_antisymm h1' h2')

/-- The sort key does not depend on the order of the dictionary. -/
theorem paramKey_perm {d d' : Params} (h : d.Perm d') : paramKey d = paramKey d' := by
  unfold paramKey
  apply List.Perm.eq_of_pairwise (le := fun a b => pairLe a b = true)
  · intro a b _ _ h1 h2; exact pairLe_antisymm a b h1 h2
  · exact List.pairwise_mergeSort (fun a b c => pairLe_trans a b c) pairLe_total _
  · exact List.pairwise_mergeSort (fun a b c => pairLe_trans a b c) pairLe_total _
  · exact (List.mergeSort_perm _ _).trans ((h.map _).trans (List.mergeSort_perm _ _).symm)

end Verif.Http
