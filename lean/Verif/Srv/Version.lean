import Verif.Srv.C138
import Verif.Http.ParamProps
/-!
# C140: negotiation of the protocol version

`parse_dataservice_version` and `parse_max_dataservice_version`, odata2/core.py:1870-1919, and
`check_capability_negotiation`, odata2/server.py:1364-1404.
-/
namespace Verif.Srv

open Verif.OData Verif.OUri
open Verif.Text (isDigit decVal decStr decStr_isDigit decStr_ne_nil decVal_decStr)
open Verif.Http (Word words openWords requireToken splitByte isDigits ascii TokByte TokEnd)

/-! ### Model -/

/-- The two numbers of a version, core.py:1880-1886, 1909-1915. -/
def versionNumbers (t : Str) : Except Http.Err (Nat × Nat) :=
  match splitByte 46 t with
  | [a, b] => if isDigits a && isDigits b then .ok (decVal a, decVal b) else .error .badSyntax
  | _ => .error .badSyntax

/-- The numbers returned by `parse_dataservice_version`, core.py:1870-1896.  The user agent is not modelled (the test
`parse_separator(";")` compares a number and a string, so it is always empty). -/
def dataServiceVersion (s : Str) : Except Http.Err (Nat × Nat) := do
  let s ← ascii s
  let ws ← openWords true s
  let (t, _) ← requireToken ws
  versionNumbers t

/-- The numbers returned by `parse_max_dataservice_version`, core.py:1899-1919: only the text before the first ";" is read. -/
def maxDataServiceVersion (s : Str) : Except Http.Err (Nat × Nat) :=
  dataServiceVersion (s.takeWhile (· != 59))

/-- The version of the request, server.py:1383-1388. -/
def requestVersion : Option Str → Except Http.Err (Nat × Nat)
  | some s => dataServiceVersion s
  | none => .ok (2, 0)

/-- The maximum major version, server.py:1389-1394. -/
def maxVersion (major : Nat) : Option Str → Except Http.Err Nat
  | some s => match maxDataServiceVersion s with
    | .ok p => .ok p.1
    | .error e => .error e
  | none => .ok major

/-- `check_capability_negotiation`, server.py:1364-1404, from the headers DataServiceVersion and MaxDataServiceVersion: `none` is
a mismatch, otherwise the major number of the version of the response. -/
def negotiate (dsv maxDsv : Option Str) : Except Http.Err (Option Nat) :=
  match requestVersion dsv with
  | .error e => .error e
  | .ok (major, minor) => match maxVersion major maxDsv with
    | .error e => .error e
    | .ok maxMajor =>
      if major > 2 || (major == 2 && minor > 0) then .ok none
      else if maxMajor ≥ 2 then .ok (some 2)
      else .ok (some 1)

variable {D E C V X Fn F : Type}

/-- `__call__`, server.py:277-365, with the negotiation: the version of the response when there is one. -/
def callVersion (ids : Ids) (fmt : Str → Option F) (pre : Str)
    (handler : Method → Uri' F → Input → D → D × Resp E C V X) (dsv maxDsv : Option Str) (r : Request) (d : D) :
    D × Outcome E C V X × Option Nat :=
  match negotiate dsv maxDsv with
  | .error _ => (d, .answer (errorResp 400), none)
  | .ok none => (d, .answer (errorResp 400), none)
  | .ok (some v) => let x := call ids fmt pre handler r d; (x.1, x.2, some v)

/-! ### Specification -/

/-- A header names the version `M.m`: optional white space, the two numbers, and then the end or something that can't be
part of a version. -/
def Names (s : Str) (M m : Nat) : Prop :=
  ∃ l a b r, s = l ++ a ++ 46 :: b ++ r ∧ (∀ c ∈ l, c = 32 ∨ c = 9 ∨ c = 13 ∨ c = 10) ∧
    a ≠ [] ∧ b ≠ [] ∧ (∀ c ∈ a ++ b, 48 ≤ c ∧ c ≤ 57) ∧ decVal a = M ∧ decVal b = m ∧ TokEnd r

/-- What a client may send: `M.m`, followed by nothing or by ";" and a user agent which is readable as HTTP words. -/
def Sends (s : Str) (M m : Nat) : Prop :=
  s = decStr M ++ 46 :: decStr m ∨
    ∃ ua, s = decStr M ++ 46 :: decStr m ++ 59 :: ua ∧ (∀ c ∈ ua, c < 128) ∧ (words true ua).isSome

/-! ### Proofs -/

theorem isDigits_range {a : Str} (h : isDigits a = true) : a ≠ [] ∧ ∀ c ∈ a, 48 ≤ c ∧ c ≤ 57 := by
  simp only [isDigits, Bool.and_eq_true, List.all_eq_true, isDigit, decide_eq_true_eq] at h
  exact ⟨by simpa using h.1, by simpa using h.2⟩

theorem splitByte_two {c : Nat} : ∀ {t a b : Str}, splitByte c t = [a, b] → t = a ++ c :: b := by
  have hne : ∀ t : Str, splitByte c t ≠ [] := by
    intro t
    cases t with
    | nil => simp [splitByte]
    | cons x t => rw [splitByte]; split; · simp
                  · split <;> simp
  have h1 : ∀ {t a : Str}, splitByte c t = [a] → t = a := by
    intro t
    induction t with
    | nil => intro a h; simp [splitByte] at h; exact h.symm
    | cons x t ih =>
      intro a h
      rw [splitByte] at h
      split at h
      · simp only [List.cons.injEq] at h; exact absurd h.2 (hne t)
      · split at h
        · next h' => exact absurd h' (hne t)
        · next k l h' => simp only [List.cons.injEq] at h; obtain ⟨rfl, rfl⟩ := h; rw [ih h']
  intro t
  induction t with
  | nil => intro a b h; simp [splitByte] at h
  | cons x t ih =>
    intro a b h
    rw [splitByte] at h
    split at h
    · next hx => simp only [List.cons.injEq] at h; obtain ⟨rfl, h⟩ := h; rw [hx, h1 h]; rfl
    · split at h
      · next h' => exact absurd h' (hne t)
      · next k l h' => simp only [List.cons.injEq] at h; obtain ⟨rfl, rfl⟩ := h; rw [ih h']; rfl

theorem spanSp_lws : ∀ (s : Str), ∀ c ∈ (Http.spanSp s).1, c = 32 ∨ c = 9 := by
  intro s
  induction s with
  | nil => simp [Http.spanSp]
  | cons b s ih =>
    intro c hc
    rw [Http.spanSp] at hc
    split at hc
    · next hb =>
      rcases List.mem_cons.mp hc with rfl | hc
      · exact hb
      · exact ih c hc
    · cases hc

theorem parseLws_lws {s l r : Str} (h : Http.parseLws s = some (l, r)) : ∀ c ∈ l, c = 32 ∨ c = 9 ∨ c = 13 ∨ c = 10 := by
  unfold Http.parseLws at h
  dsimp only at h
  split at h
  · split at h
    · cases h
    · simp only [Option.some.injEq, Prod.mk.injEq] at h
      obtain ⟨rfl, -⟩ := h
      intro c hc
      rcases List.mem_append.mp hc with hc | hc
      · simp at hc; omega
      · have := spanSp_lws _ c hc; omega
  · split at h
    · cases h
    · simp only [Option.some.injEq, Prod.mk.injEq] at h
      obtain ⟨rfl, -⟩ := h
      intro c hc
      have := spanSp_lws _ c (by simpa using hc); omega

theorem skipLws_lws : ∀ (n : Nat) (s : Str), ∃ l, s = l ++ Http.skipLws n s ∧ ∀ c ∈ l, c = 32 ∨ c = 9 ∨ c = 13 ∨ c = 10 := by
  intro n
  induction n with
  | zero => intro s; exact ⟨[], rfl, by simp⟩
  | succ n ih =>
    intro s
    rw [Http.skipLws]
    split
    · next l r h =>
      obtain ⟨l', h1, h2⟩ := ih r
      refine ⟨l ++ l', ?_, ?_⟩
      · rw [(Http.parseLws_append h).1, List.append_assoc, ← h1]
      · intro c hc
        rcases List.mem_append.mp hc with hc | hc
        · exact parseLws_lws h c hc
        · exact h2 c hc
    · exact ⟨[], rfl, by simp⟩

theorem drop_takeWhile {α : Type} (p : α → Bool) : ∀ (s : List α),
    s = s.takeWhile p ++ s.drop (s.takeWhile p).length ∧ (∀ x ∈ s.takeWhile p, p x = true) ∧
      ∀ x r, s.drop (s.takeWhile p).length = x :: r → p x = false := by
  intro s
  induction s with
  | nil => simp
  | cons y s ih =>
    by_cases hy : p y = true
    · rw [List.takeWhile_cons_of_pos hy]
      refine ⟨?_, ?_, ?_⟩
      · simp only [List.cons_append, List.length_cons, List.drop_succ_cons]; rw [← ih.1]
      · intro x hx
        rcases List.mem_cons.mp hx with rfl | hx
        · exact hy
        · exact ih.2.1 x hx
      · intro x r; simp only [List.length_cons, List.drop_succ_cons]; exact ih.2.2 x r
    · rw [List.takeWhile_cons_of_neg hy]
      refine ⟨rfl, by simp, ?_⟩
      intro x r h
      simp only [List.length_nil, List.drop_zero, List.cons.injEq] at h
      rw [← h.1]; simpa using hy

theorem parseToken_spec {s w r : Str} (h : Http.parseToken s = some (w, r)) :
    s = w ++ r ∧ w ≠ [] ∧ (∀ x ∈ w, TokByte x) ∧ TokEnd r := by
  unfold Http.parseToken at h
  dsimp only at h
  split at h
  · cases h
  · next hne =>
    simp only [Option.some.injEq, Prod.mk.injEq] at h
    obtain ⟨rfl, rfl⟩ := h
    obtain ⟨h1, h2, h3⟩ := drop_takeWhile (fun b => !(Http.isCtl b || Http.isSeparator b)) s
    refine ⟨h1, hne, fun x hx => (Http.tokByte_iff x).mp (h2 x hx), ?_⟩
    intro x r' hr ht
    have := h3 x r' hr
    rw [(Http.tokByte_iff x).mpr ht] at this
    cases this

/-- A word that is a token is what the value begins with after white space. -/
theorem words_token_prefix {s : Str} {ws : List Word} {t : Str} {ws' : List Word} (h : words true s = some ws)
    (ht : requireToken ws = .ok (t, ws')) :
    ∃ l r, s = l ++ t ++ r ∧ (∀ c ∈ l, c = 32 ∨ c = 9 ∨ c = 13 ∨ c = 10) ∧ TokEnd r := by
  cases s with
  | nil => rw [Http.words_nil] at h; cases h; cases ht
  | cons b s =>
    obtain ⟨l, hl, hlws⟩ := skipLws_lws (b :: s).length (b :: s)
    cases hs : Http.wordStep true (b :: s) with
    | stop => unfold words Verif.Text.run Verif.Text.loop at h; rw [hs] at h; cases h; cases ht
    | fail => unfold words Verif.Text.run Verif.Text.loop at h; rw [hs] at h; cases h
    | last a r =>
      unfold words Verif.Text.run Verif.Text.loop at h; rw [hs] at h
      simp only [Http.wordStep] at hs
      split at hs
      · simp at hs; obtain ⟨rfl, rfl⟩ := hs; simp at h; subst h; cases ht
      · split at hs
        · split at hs
          · split at hs <;> cases hs
          · split at hs
            · split at hs <;> cases hs
            · cases hs
        · split at hs <;> cases hs
    | emit a r =>
      rw [Http.words_emit hs] at h
      simp only [Option.map_eq_some_iff] at h
      obtain ⟨ws2, -, rfl⟩ := h
      simp only [Http.wordStep] at hs
      generalize Http.skipLws (b :: s).length (b :: s) = k at hs hl
      cases k with
      | nil => cases hs
      | cons c k =>
        simp only [Bool.not_true, Bool.false_and, Bool.false_eq_true, if_false, List.nil_append] at hs
        split at hs
        · split at hs
          · split at hs
            · next w t' hc =>
              cases hs
              unfold Http.parseComment at hc
              split at hc
              · split at hc
                · cases hc
                · simp only [Option.some.injEq, Prod.mk.injEq] at hc
                  obtain ⟨rfl, -⟩ := hc
                  exact absurd ht (by simp [requireToken, Http.wpToken, show Http.isSeparator 40 = true by decide])
              · cases hc
            · cases hs
          · split at hs
            · split at hs
              · next w t' hc =>
                cases hs
                unfold Http.parseQuotedString at hc
                split at hc
                · simp only [Option.some.injEq, Prod.mk.injEq] at hc
                  obtain ⟨rfl, -⟩ := hc
                  exact absurd ht (by simp [requireToken, Http.wpToken, show Http.isSeparator 34 = true by decide])
                · cases hc
              · cases hs
            · cases hs
              exact absurd ht (by simp [requireToken, Http.wpToken])
        · split at hs
          · next w t' hc =>
            cases hs
            obtain ⟨h1, hne, htok, hend⟩ := parseToken_spec hc
            rw [List.cons_append, List.nil_append, Http.requireToken_tok hne htok] at ht
            simp only [Except.ok.injEq, Prod.mk.injEq] at ht
            obtain ⟨rfl, -⟩ := ht
            exact ⟨l, r, by rw [List.append_assoc, hl, h1], hlws, hend⟩
          · cases hs

theorem ascii_ok {s s' : Str} (h : ascii s = .ok s') : s' = s ∧ ∀ c ∈ s, c < 128 := by
  unfold ascii at h
  split at h
  · next ha => cases h; exact ⟨rfl, by simpa using ha⟩
  · cases h

theorem ascii_of {s : Str} (h : ∀ c ∈ s, c < 128) : ascii s = .ok s := by
  unfold ascii
  rw [if_pos (by simpa using h)]

theorem names_of_dataServiceVersion {s : Str} {M m : Nat} (h : dataServiceVersion s = .ok (M, m)) : Names s M m := by
  unfold dataServiceVersion at h
  cases ha : ascii s with
  | error e => rw [ha] at h; cases h
  | ok s' =>
    obtain ⟨rfl, -⟩ := ascii_ok ha
    rw [ha] at h
    simp only [bind, Except.bind] at h
    cases hw : words true s' with
    | none => simp only [openWords, hw] at h; cases h
    | some ws =>
      simp only [openWords, hw] at h
      cases ht : requireToken ws with
      | error e => rw [ht] at h; cases h
      | ok p =>
        obtain ⟨t, ws'⟩ := p
        rw [ht] at h
        simp only [versionNumbers] at h
        obtain ⟨l, r, hs, hl, hr⟩ := words_token_prefix hw ht
        split at h
        · next a b hsp =>
          split at h
          · next hd =>
            simp only [Bool.and_eq_true] at hd
            simp only [Except.ok.injEq, Prod.mk.injEq] at h
            obtain ⟨a0, ad⟩ := isDigits_range hd.1
            obtain ⟨b0, bd⟩ := isDigits_range hd.2
            refine ⟨l, a, b, r, ?_, hl, a0, b0, ?_, h.1, h.2, hr⟩
            · rw [hs, splitByte_two hsp]; simp
            · intro c hc
              rcases List.mem_append.mp hc with hc | hc
              · exact ad c hc
              · exact bd c hc
          · cases h
        · cases h

theorem dataServiceVersion_sends {s : Str} {M m : Nat} (h : Sends s M m) : dataServiceVersion s = .ok (M, m) := by
  have htok : ∀ b ∈ decStr M ++ 46 :: decStr m, TokByte b := by
    intro b hb
    simp only [List.mem_append, List.mem_cons] at hb
    rcases hb with hb | rfl | hb
    · exact (Http.digit_tok (decStr_isDigit _ b hb)).1
    · decide
    · exact (Http.digit_tok (decStr_isDigit _ b hb)).1
  have hdig : ∀ n, ∀ b ∈ decStr n, b < 128 := by
    intro n b hb
    have := decStr_isDigit n b hb
    simp [isDigit] at this
    omega
  have hasc : ∀ b ∈ decStr M ++ 46 :: decStr m, b < 128 := by
    intro b hb
    simp only [List.mem_append, List.mem_cons] at hb
    rcases hb with hb | rfl | hb
    · exact hdig _ b hb
    · decide
    · exact hdig _ b hb
  have n1 : decStr M ++ 46 :: decStr m ≠ [] := by simp
  have hs : splitByte 46 (decStr M ++ 46 :: decStr m) = [decStr M, decStr m] := by
    rw [Http.splitByte_append, Http.splitByte_none]
    · intro hm; exact (Http.digit_tok (decStr_isDigit _ _ hm)).2.1 rfl
    · intro hm; exact (Http.digit_tok (decStr_isDigit _ _ hm)).2.1 rfl
  have key : ∀ s ws, (∀ c ∈ s, c < 128) → words true s = some (.text (decStr M ++ 46 :: decStr m) :: ws) →
      dataServiceVersion s = .ok (M, m) := by
    intro s ws ha hw
    unfold dataServiceVersion
    rw [ascii_of ha]
    simp only [bind, Except.bind, openWords, hw, Http.requireToken_tok n1 htok, versionNumbers, hs, Http.isDigits_decStr,
      decVal_decStr]
    rfl
  rcases h with rfl | ⟨ua, rfl, hua, hw⟩
  · refine key _ [] hasc ?_
    have := Http.words_token true _ [] n1 htok Http.tokEnd_nil
    rw [List.append_nil] at this
    rw [this, Http.words_nil]
    rfl
  · obtain ⟨ws, hw⟩ := Option.isSome_iff_exists.mp hw
    refine key _ (.sep 59 :: ws) ?_ ?_
    · intro c hc
      rcases List.mem_append.mp hc with hc | hc
      · exact hasc c hc
      · rcases List.mem_cons.mp hc with rfl | hc
        · decide
        · exact hua c hc
    · rw [Http.words_token true _ _ n1 htok (Http.tokEnd_cons (by decide)),
        Http.words_sep true 59 _ (by decide) (by decide) (by decide) (by decide) (by decide), hw]
      rfl

theorem takeWhile_semi (v ua : Str) (h : 59 ∉ v) : (v ++ 59 :: ua).takeWhile (· != 59) = v ∧ v.takeWhile (· != 59) = v := by
  have h' : ∀ x ∈ v, (x != 59) = true := by
    intro x hx
    simp only [bne_iff_ne]
    rintro rfl
    exact h hx
  constructor
  · rw [List.takeWhile_append_of_pos h', List.takeWhile_cons_of_neg (by simp), List.append_nil]
  · have := List.takeWhile_append_of_pos (l₂ := []) h'
    simpa using this

/-- A maximum version, whatever follows its ";". -/
def SendsMax (s : Str) (M m : Nat) : Prop :=
  s = decStr M ++ 46 :: decStr m ∨ ∃ ua, s = decStr M ++ 46 :: decStr m ++ 59 :: ua

theorem maxDataServiceVersion_sends {s : Str} {M m : Nat} (h : SendsMax s M m) : maxDataServiceVersion s = .ok (M, m) := by
  have h59 : 59 ∉ decStr M ++ 46 :: decStr m := by
    intro hm
    simp only [List.mem_append, List.mem_cons] at hm
    rcases hm with hm | hm | hm
    · have := decStr_isDigit _ _ hm; cases this
    · cases hm
    · have := decStr_isDigit _ _ hm; cases this
  unfold maxDataServiceVersion
  rcases h with rfl | ⟨ua, rfl⟩
  · rw [(takeWhile_semi _ [] h59).2]; exact dataServiceVersion_sends (.inl rfl)
  · rw [(takeWhile_semi _ ua h59).1]; exact dataServiceVersion_sends (.inl rfl)

/-! ### C140 -/

/-- The version a request declares: what the header says, 2.0 without it. -/
def Declares (dsv : Option Str) (M m : Nat) : Prop := match dsv with
  | none => M = 2 ∧ m = 0
  | some s => Sends s M m

/-- The greatest major version a client accepts: what the header says, that of the request without it. -/
def Accepts (maxDsv : Option Str) (M : Nat) (X : Nat) : Prop := match maxDsv with
  | none => X = M
  | some s => ∃ x, SendsMax s X x

/-- **C140**: a request that declares a version is refused with 400, without touching the data, exactly when the version is above
2.0; otherwise it is handled, and the response has version 2 when the client accepts version 2 or more, 1 otherwise. -/
theorem C140_negotiation (ids : Ids) (fmt : Str → Option F) (pre : Str)
    (handler : Method → Uri' F → Input → D → D × Resp E C V X) (dsv maxDsv : Option Str) (r : Request) (d : D) (M m K : Nat)
    (h : Declares dsv M m) (hm : Accepts maxDsv M K) :
    callVersion ids fmt pre handler dsv maxDsv r d =
      if 2 < M ∨ (M = 2 ∧ 0 < m) then (d, .answer (errorResp 400), none)
      else ((call ids fmt pre handler r d).1, (call ids fmt pre handler r d).2, some (if 2 ≤ K then 2 else 1)) := by
  have h1 : requestVersion dsv = .ok (M, m) := by
    cases dsv with
    | none => obtain ⟨rfl, rfl⟩ := h; rfl
    | some s => exact dataServiceVersion_sends h
  have h2 : maxVersion M maxDsv = .ok K := by
    cases maxDsv with
    | none => cases hm; rfl
    | some s =>
      obtain ⟨x, hx⟩ := hm
      simp only [maxVersion, maxDataServiceVersion_sends hx]
  have h3 : negotiate dsv maxDsv = .ok (if 2 < M ∨ (M = 2 ∧ 0 < m) then none else some (if 2 ≤ K then 2 else 1)) := by
    unfold negotiate
    simp only [h1, h2, gt_iff_lt, ge_iff_le, Bool.or_eq_true, decide_eq_true_eq, Bool.and_eq_true, beq_iff_eq]
    split
    · rfl
    · split <;> rfl
  unfold callVersion
  rw [h3]
  by_cases hc : 2 < M ∨ (M = 2 ∧ 0 < m)
  · simp only [if_pos hc]
  · simp only [if_neg hc]

/-- **C140** (nothing else is read as a version): when a request is handled its headers begin with two numbers separated by a dot,
the version declared is at most 2.0 and the response has version 1 or 2; otherwise the answer is 400 and the data is untouched. -/
theorem C140_only (ids : Ids) (fmt : Str → Option F) (pre : Str)
    (handler : Method → Uri' F → Input → D → D × Resp E C V X) (dsv maxDsv : Option Str) (r : Request) (d : D) :
    callVersion ids fmt pre handler dsv maxDsv r d = (d, .answer (errorResp 400), none) ∨
      ∃ v, (v = 1 ∨ v = 2) ∧
        callVersion ids fmt pre handler dsv maxDsv r d =
          ((call ids fmt pre handler r d).1, (call ids fmt pre handler r d).2, some v) ∧
        (∀ s, dsv = some s → ∃ M m, Names s M m ∧ (M < 2 ∨ (M = 2 ∧ m = 0))) ∧
        (∀ s, maxDsv = some s → ∃ M m, Names (s.takeWhile (· != 59)) M m ∧ (v = 2 ↔ 2 ≤ M)) := by
  unfold callVersion
  cases hn : negotiate dsv maxDsv with
  | error e => exact .inl rfl
  | ok o =>
    cases o with
    | none => exact .inl rfl
    | some v =>
      right
      unfold negotiate at hn
      cases h1 : requestVersion dsv with
      | error e => rw [h1] at hn; cases hn
      | ok p =>
        obtain ⟨M, m⟩ := p
        rw [h1] at hn
        dsimp only at hn
        cases h2 : maxVersion M maxDsv with
        | error e => rw [h2] at hn; cases hn
        | ok K =>
          rw [h2] at hn
          have hv : (v = 1 ∨ v = 2) ∧ (v = 2 ↔ 2 ≤ K) ∧ (M < 2 ∨ (M = 2 ∧ m = 0)) := by
            simp only [gt_iff_lt, ge_iff_le, Bool.or_eq_true, decide_eq_true_eq, Bool.and_eq_true, beq_iff_eq] at hn
            split at hn
            · cases hn
            · split at hn <;> cases hn <;> omega
          refine ⟨v, hv.1, rfl, ?_, ?_⟩
          · rintro s rfl
            exact ⟨M, m, names_of_dataServiceVersion h1, hv.2.2⟩
          · rintro s rfl
            unfold maxVersion at h2
            dsimp only at h2
            cases h3 : maxDataServiceVersion s with
            | error e => rw [h3] at h2; cases h2
            | ok p =>
              rw [h3] at h2
              cases h2
              exact ⟨p.1, p.2, names_of_dataServiceVersion h3, hv.2.1⟩

/-- "2.0;X": a version with a user agent, and one above 2.0. -/
example : Declares (some [50, 46, 48, 59, 88]) 2 0 := .inr ⟨[88], by decide +kernel, by decide, by decide +kernel⟩
example : Declares (some [51, 46, 48]) 3 0 ∧ Accepts (some [49, 46, 48, 59, 40]) 3 1 :=
  ⟨.inl (by decide +kernel), 0, .inr ⟨[40], by decide +kernel⟩⟩
example : negotiate (some [49, 46, 48]) (some [50, 46, 48]) = .ok (some 2) := by decide +kernel
example : negotiate (some [51, 46, 48]) none = .ok none := by decide +kernel
example : negotiate (some [50]) none = .error .badSyntax := by decide +kernel

/-- A client that accepts only a version below 1.0 is answered in version 1.0, although the response exceeds the maximum. -/
theorem C140_zero_violation : negotiate (some [49, 46, 48]) (some [48, 46, 57]) = .ok (some 1) := by decide +kernel

end Verif.Srv
