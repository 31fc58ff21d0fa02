import Verif.OData.Paging

/-!
# Properties of paging (C63, C69)
-/
namespace Verif.OData.Paging

/-! ## Skip tokens round trip -/

theorem hexVal_hexChar (d : Nat) (h : d < 16) : hexVal (hexChar d) = some d := by
  unfold hexChar hexVal
  split <;> (repeat' split) <;> first | omega | (congr 1; omega)

theorem hexChar_range (d : Nat) (h : d < 16) :
    (48 ≤ hexChar d ∧ hexChar d ≤ 57) ∨ (65 ≤ hexChar d ∧ hexChar d ≤ 70) := by
  unfold hexChar; split <;> omega

/-- Upper case hexadecimal digits. -/
def AllHex (l : List Nat) : Prop := ∀ c ∈ l, (48 ≤ c ∧ c ≤ 57) ∨ (65 ≤ c ∧ c ≤ 70)

theorem hexAux_allHex : ∀ fuel n, AllHex (hexAux fuel n)
  | 0, n => by intro c hc; simp [hexAux] at hc
  | fuel + 1, n => by
    intro c hc
    unfold hexAux at hc
    split at hc
    · simp at hc; subst hc; exact hexChar_range n (by omega)
    · rw [List.mem_append] at hc
      rcases hc with hc | hc
      · exact hexAux_allHex fuel (n / 16) c hc
      · simp at hc; subst hc; exact hexChar_range _ (by omega)

theorem hexRest_cons {c d : Nat} (acc : Nat) (cs : List Nat) (h : hexVal c = some d) (h95 : c ≠ 95) :
    hexRest acc (c :: cs) = hexRest (16 * acc + d) cs := by
  cases cs with
  | nil =>
    rw [hexRest.eq_def]
    split
    · contradiction
    · simp_all
    · rename_i heq; injection heq with a b; subst a; subst b; simp [h]
  | cons x xs =>
    rw [hexRest.eq_def]
    split
    · contradiction
    · rename_i heq; injection heq with a b; exact absurd a h95
    · rename_i heq; injection heq with a b; subst a; subst b; simp [h]

theorem hexRest_append : ∀ (a b : List Nat) (acc v : Nat), AllHex a → hexRest acc a = some v →
    hexRest acc (a ++ b) = hexRest v b
  | [], b, acc, v, _, h => by simp [hexRest] at h; simp [h]
  | c :: cs, b, acc, v, ha, h => by
    have hc := ha c (by simp)
    have h95 : c ≠ 95 := by omega
    have hv : ∃ d, hexVal c = some d := by
      unfold hexVal
      rcases hc with hc | hc
      · exact ⟨c - 48, by rw [if_pos hc]⟩
      · exact ⟨c - 55, by rw [if_neg (by omega), if_pos hc]⟩
    obtain ⟨d, hd⟩ := hv
    rw [hexRest_cons acc cs hd h95] at h
    rw [List.cons_append, hexRest_cons acc _ hd h95]
    exact hexRest_append cs b _ v (fun x hx => ha x (by simp [hx])) h

theorem hexDigits_hexAux : ∀ fuel n, n < fuel → hexDigits (hexAux fuel n) = some n
  | 0, n, h => by omega
  | fuel + 1, n, h => by
    unfold hexAux
    by_cases h16 : n < 16
    · rw [if_pos h16]; simp [hexDigits, hexVal_hexChar n h16, hexRest]
    · rw [if_neg h16]
      have ih := hexDigits_hexAux fuel (n / 16) (by omega)
      have hall := hexAux_allHex fuel (n / 16)
      cases hl : hexAux fuel (n / 16) with
      | nil => rw [hl] at ih; simp [hexDigits] at ih
      | cons c cs =>
        rw [hl] at ih hall
        unfold hexDigits at ih
        cases hd : hexVal c with
        | none => simp [hd] at ih
        | some d =>
          simp [hd] at ih
          rw [List.cons_append]
          unfold hexDigits
          simp [hd]
          rw [hexRest_append cs _ d (n / 16) (fun x hx => hall x (by simp [hx])) ih]
          have hr := hexChar_range (n % 16) (by omega)
          rw [hexRest_cons _ [] (hexVal_hexChar (n % 16) (by omega)) (by omega)]
          simp [hexRest]; omega

theorem hexBody_allHex (l : List Nat) (h : AllHex l) : hexBody l = hexDigits l := by
  have aux : ∀ c ∈ l, c ≠ 120 ∧ c ≠ 88 := fun c hc => by have := h c hc; omega
  unfold hexBody
  split
  · exact absurd rfl (aux 120 (by simp)).1
  · exact absurd rfl (aux 120 (by simp)).1
  · exact absurd rfl (aux 88 (by simp)).2
  · exact absurd rfl (aux 88 (by simp)).2
  · rfl

theorem dropWhile_noWs (l : List Nat) (h : ∀ c ∈ l, isWs c = false) : l.dropWhile isWs = l := by
  cases l with
  | nil => rfl
  | cons c cs => simp [List.dropWhile, h c (by simp)]

theorem strip_noWs (l : List Nat) (h : ∀ c ∈ l, isWs c = false) :
    ((l.dropWhile isWs).reverse.dropWhile isWs).reverse = l := by
  rw [dropWhile_noWs l h, dropWhile_noWs l.reverse (by simpa using h)]; simp

theorem allHex_noWs {l : List Nat} (h : AllHex l) : ∀ c ∈ l, isWs c = false := by
  intro c hc; have := h c hc; simp [isWs]; omega

theorem intHex_hexStr (n : Int) : intHex (hexStr n) = some n := by
  unfold intHex hexStr
  have hall := hexAux_allHex (n.natAbs + 1) n.natAbs
  have hd := hexDigits_hexAux (n.natAbs + 1) n.natAbs (by omega)
  by_cases h : n < 0
  · rw [if_pos h, strip_noWs]
    · simp [hexSigned, hexBody_allHex _ hall, hd]; omega
    · intro c hc
      simp at hc
      rcases hc with rfl | hc
      · rfl
      · exact allHex_noWs hall c hc
  · rw [if_neg h, strip_noWs _ (allHex_noWs hall)]
    unfold hexSigned
    split
    · rename_i heq; rw [heq] at hall; have := hall 45 (by simp); omega
    · rename_i heq; rw [heq] at hall; have := hall 43 (by simp); omega
    · rw [hexBody_allHex _ hall, hd]; simp; omega

/-! ## The loops -/

theorem runAll_ge {α} (lo : Int) : ∀ (es : List α) (i : Int), lo ≤ i → runAll lo i es = es
  | [], i, _ => rfl
  | e :: es, i, h => by
    unfold runAll
    rw [if_pos h, runAll_ge lo es (i + 1) (by omega)]

theorem runAll_eq {α} : ∀ (es : List α) (k : Nat) (i : Int),
    runAll (i + k) i es = es.drop k
  | [], k, i => by simp [runAll]
  | e :: es, 0, i => by rw [runAll_ge _ _ _ (by omega)]; rfl
  | e :: es, k + 1, i => by
    unfold runAll
    rw [if_neg (by omega)]
    have := runAll_eq es k (i + 1)
    rw [show i + ((k + 1 : Nat) : Int) = i + 1 + (k : Int) by omega]
    simpa using this

theorem runTo_ge {α} (lo : Int) : ∀ (es : List α) (w : Nat) (i : Int), lo ≤ i →
    runTo lo (i + w) i es = (es.take w, if w < es.length then some (i + w) else none)
  | [], w, i, _ => by simp [runTo]
  | e :: es, 0, i, h => by
    unfold runTo
    rw [if_neg (by omega), if_neg (by omega)]
    simp
  | e :: es, w + 1, i, h => by
    unfold runTo
    rw [if_neg (by omega), if_pos (by omega)]
    have := runTo_ge lo es w (i + 1) (by omega)
    rw [show i + ((w + 1 : Nat) : Int) = i + 1 + (w : Int) by omega, this]
    simp

theorem runTo_eq {α} : ∀ (es : List α) (k w : Nat) (i : Int),
    runTo (i + k) (i + k + w) i es =
      ((es.drop k).take w, if k + w < es.length then some (i + k + w) else none)
  | [], k, w, i => by simp [runTo]
  | e :: es, 0, w, i => by
    have := runTo_ge (i + (0 : Nat)) (e :: es) w i (by omega)
    simpa using this
  | e :: es, k + 1, w, i => by
    unfold runTo
    rw [if_pos (by omega)]
    have := runTo_eq es k w (i + 1)
    rw [show i + ((k + 1 : Nat) : Int) = i + 1 + (k : Int) by omega, this]
    simp [Nat.add_right_comm]

/-! ## Specification

The page width asked for: the smaller of `top` and the server's limit; `none` when neither is
given (an unlimited page). -/

/-- The server's limit counts only when it is not zero. -/
def effLimit : Option Nat → Option Nat
  | some 0 => none
  | l => l

/-- The number of entities in a full page. -/
def width (top topmax : Option Nat) : Option Nat :=
  match top, effLimit topmax with
  | none, m => m
  | some t, none => some t
  | some t, some m => some (min t m)

/-- Page number `k` (from 0) of the entities after the first `s`. -/
def pageSpec {α : Type} (es : List α) (s w k : Nat) : List α := (es.drop (s + k * w)).take w

theorem pageSpec_flatten {α} (es : List α) (s w : Nat) : ∀ n,
    ((List.range n).map (pageSpec es s w)).flatten = (es.drop s).take (n * w)
  | 0 => by simp
  | n + 1 => by
    rw [List.range_succ, List.map_append, List.flatten_append, pageSpec_flatten es s w n]
    simp only [List.map_cons, List.map_nil, List.flatten_cons, List.flatten_nil, List.append_nil]
    rw [pageSpec, Nat.succ_mul, List.take_add, List.drop_drop]

/-- A state that will go on at position `p` with pages of width `w`, having started from `s0`. -/
structure At (s0 s : St) (p : Nat) : Prop where
  top : s.top = s0.top
  topmax : s.topmax = s0.topmax
  pos : emin s = p

theorem emin_tok (s : St) (n : Int) : emin { s with skip := none, skiptoken := some (hexStr n) } = n := by
  simp [emin, intHex_hexStr]

theorem emin_skip (s : St) (n : Int) : emin { s with skip := some n, skiptoken := none } = n := by
  simp [emin]

theorem limit_eff (s : St) : limit s = effLimit s.topmax := by
  unfold limit effLimit
  cases s.topmax with
  | none => rfl
  | some m => cases m <;> rfl

theorem emax_width (s : St) : emax s = (width s.top s.topmax).map fun (w : Nat) => emin s + (w : Int) := by
  unfold emax cuts width
  rw [limit_eff]
  cases effLimit s.topmax with
  | none => cases s.top <;> rfl
  | some m =>
    cases s.top with
    | none => rfl
    | some t =>
      dsimp only
      by_cases h : t > m
      · rw [if_pos h]; simp; omega
      · rw [if_neg h]; simp; omega

theorem nextTok_width {s : St} {w : Nat} (h : cuts s = some w) : width s.top s.topmax = some w := by
  unfold cuts at h
  unfold width
  rw [limit_eff] at h
  revert h
  cases effLimit s.topmax with
  | none => intro h; cases h
  | some m =>
    cases s.top with
    | none => exact id
    | some t =>
      dsimp only
      by_cases ht : t > m
      · rw [if_pos ht]; intro h; injection h with h; congr 1; omega
      · rw [if_neg ht]; intro h; cases h

/-- One call of `iterpage(True)` from position `p`. -/
theorem iterpage_at {α} (es : List α) (s : St) (p w : Nat) (htop : s.top ≠ some 0)
    (hw : width s.top s.topmax = some w) (hp : emin s = p) :
    (iterpage es s true).1 = (es.drop p).take w ∧
      (if p + w < es.length then
        (iterpage es s true).2.top = s.top ∧ (iterpage es s true).2.topmax = s.topmax ∧
          emin (iterpage es s true).2 = ((p + w : Nat) : Int)
      else (iterpage es s true).2.top = some 0) := by
  have hmax := emax_width s
  rw [hw] at hmax
  unfold iterpage
  rw [if_neg htop]
  dsimp only
  rw [hmax]
  dsimp only [Option.map]
  have hrun := runTo_eq es p w 0
  rw [hp]
  rw [Int.zero_add] at hrun
  rw [hrun]
  refine ⟨rfl, ?_⟩
  by_cases hlt : p + w < es.length
  · rw [if_pos hlt]
    simp only [hlt, if_true, finish]
    unfold setNext
    cases hn : nextTok s with
    | none =>
      dsimp only
      refine ⟨rfl, rfl, ?_⟩
      have := emin_skip { s with nextSkiptoken := none } ((p : Int) + w)
      simpa using this
    | some t =>
      dsimp only
      refine ⟨rfl, rfl, ?_⟩
      unfold nextTok at hn
      cases hc : cuts s with
      | none => rw [hc] at hn; cases hn
      | some m =>
        rw [hc] at hn
        have hm := nextTok_width hc
        rw [hw] at hm
        injection hm with hm
        subst hm
        injection hn with hn
        subst hn
        rw [hp]
        have := emin_tok { s with nextSkiptoken := some (hexStr ((p : Int) + w)) } ((p : Int) + w)
        simpa using this
  · rw [if_neg hlt]
    simp [hlt, finish, setDone]

theorem iterpage_done {α} (es : List α) (s : St) (b : Bool) (h : s.top = some 0) :
    iterpage es s b = ([], s) := by
  unfold iterpage; rw [if_pos h]

theorem pages_done {α} (es : List α) (s : St) (h : s.top = some 0) :
    ∀ n, pages es n s = List.replicate n [] ∧ (after es n s).top = some 0
  | 0 => ⟨rfl, h⟩
  | n + 1 => by
    unfold pages after
    rw [iterpage_done es s true h]
    have := pages_done es s h n
    exact ⟨by rw [this.1]; rfl, this.2⟩

theorem pageSpec_past {α} (es : List α) (p w : Nat) (h : es.length ≤ p) (n : Nat) :
    (List.range n).map (pageSpec es p w) = List.replicate n [] := by
  rw [List.eq_replicate_iff]
  refine ⟨by simp, ?_⟩
  intro b hb
  rw [List.mem_map] at hb
  obtain ⟨k, _, rfl⟩ := hb
  unfold pageSpec
  rw [List.drop_eq_nil_of_le (Nat.le_trans h (Nat.le_add_right _ _))]
  simp

theorem range_succ_map {α} (es : List α) (p w n : Nat) :
    (List.range (n + 1)).map (pageSpec es p w) =
      (es.drop p).take w :: (List.range n).map (pageSpec es (p + w) w) := by
  rw [List.range_succ_eq_map, List.map_cons, List.map_map]
  congr 1
  · simp [pageSpec]
  · apply List.map_congr_left
    intro k _
    simp only [Function.comp, pageSpec, Nat.succ_mul]
    congr 2
    omega

theorem pages_eq {α} (es : List α) (w : Nat) (hw0 : 0 < w) :
    ∀ (n : Nat) (s : St) (p : Nat), s.top ≠ some 0 → width s.top s.topmax = some w → emin s = p →
      pages es n s = (List.range n).map (pageSpec es p w) ∧
        (0 < n → ((after es n s).top = some 0 ↔ es.length ≤ p + n * w))
  | 0, s, p, _, _, _ => ⟨rfl, fun h => by omega⟩
  | n + 1, s, p, htop, hw, hp => by
    have hone := iterpage_at es s p w htop hw hp
    unfold pages after
    rw [range_succ_map, hone.1]
    by_cases hlt : p + w < es.length
    · rw [if_pos hlt] at hone
      obtain ⟨_, ht, hm, he⟩ := hone
      have ih := pages_eq es w hw0 n (iterpage es s true).2 (p + w)
        (by rw [ht]; exact htop) (by rw [ht, hm]; exact hw) he
      refine ⟨by rw [ih.1], fun _ => ?_⟩
      cases n with
      | zero =>
        simp only [after, Nat.zero_add, Nat.one_mul]
        rw [ht]
        exact ⟨fun h => absurd h htop, fun h => by omega⟩
      | succ n =>
        rw [ih.2 (by omega), Nat.succ_mul (n + 1) w]
        constructor <;> intro h <;> omega
    · rw [if_neg hlt] at hone
      have hd := pages_done es (iterpage es s true).2 hone.2 n
      refine ⟨by rw [hd.1, pageSpec_past es (p + w) w (by omega)], fun _ => ?_⟩
      constructor
      · intro _
        have : w ≤ (n + 1) * w := Nat.le_mul_of_pos_left w (by omega)
        omega
      · intro _; exact hd.2

/-- C63: calling `iterpage(set_next=True)` again and again after `set_page(top, skip)` gives the
consecutive pages of the collection from position `skip`, each of the requested width, whatever the
server's limit; the call that reaches the end marks the collection as finished, and every later
page is empty. -/
theorem C63_pages {α} (es : List α) (st : St) (top topmax : Option Nat) (skip w : Nat)
    (hmax : st.topmax = topmax) (hw : width top topmax = some w) (hw0 : 0 < w) (n : Nat) :
    pages es n (setPage st top (some skip) none) = (List.range n).map (pageSpec es skip w) ∧
      (0 < n → ((after es n (setPage st top (some skip) none)).top = some 0 ↔
        es.length ≤ skip + n * w)) := by
  apply pages_eq es w hw0 n _ skip
  · show top ≠ some 0
    rintro rfl
    unfold width at hw
    cases h : effLimit topmax with
    | none => rw [h] at hw; injection hw with hw; omega
    | some m => rw [h] at hw; injection hw with hw; omega
  · show width top st.topmax = some w
    rw [hmax]; exact hw
  · exact emin_skip st skip

/-- C63: so the pages, joined together, are exactly the entities from `skip` on: each once, none
missing, in order; and the number of pages needed is finite. -/
theorem C63_each_entity_once {α} (es : List α) (st : St) (top topmax : Option Nat) (skip w : Nat)
    (hmax : st.topmax = topmax) (hw : width top topmax = some w) (hw0 : 0 < w) (n : Nat)
    (hdone : (after es n (setPage st top (some skip) none)).top = some 0) (hn : 0 < n) :
    (pages es n (setPage st top (some skip) none)).flatten = es.drop skip := by
  have h := C63_pages es st top topmax skip w hmax hw hw0 n
  rw [h.1, pageSpec_flatten]
  have := (h.2 hn).1 hdone
  rw [List.take_of_length_le]
  rw [List.length_drop]; omega

theorem C63_ends {α} (es : List α) (st : St) (top topmax : Option Nat) (skip w : Nat)
    (hmax : st.topmax = topmax) (hw : width top topmax = some w) (hw0 : 0 < w) :
    (after es (es.length + 1) (setPage st top (some skip) none)).top = some 0 := by
  have h := C63_pages es st top topmax skip w hmax hw hw0 (es.length + 1)
  rw [h.2 (by omega)]
  have : es.length + 1 ≤ (es.length + 1) * w := Nat.le_mul_of_pos_right _ hw0
  omega

/-- C63: with no `top` and no limit, one page holds everything from `skip` on, and the next call
gives nothing. -/
theorem C63_unlimited {α} (es : List α) (st : St) (skip : Nat) (hmax : st.topmax = none) (n : Nat) :
    pages es (n + 1) (setPage st none (some skip) none) =
      es.drop skip :: List.replicate n [] := by
  have hmax' : emax (setPage st none (some skip) none) = none := by
    rw [emax_width]; simp [setPage, hmax, width, effLimit]
  have h1 : iterpage es (setPage st none (some skip) none) true =
      (es.drop skip, setDone { setPage st none (some skip) none with
        nextSkiptoken := nextTok (setPage st none (some skip) none) }) := by
    unfold iterpage
    rw [if_neg (by simp [setPage])]
    dsimp only
    rw [hmax']
    dsimp only
    have he : emin (setPage st none (some skip) none) = skip := emin_skip st skip
    have := runAll_eq es skip 0
    rw [he]
    rw [Int.zero_add] at this
    rw [this]
    rfl
  unfold pages
  rw [h1]
  rw [(pages_done es _ rfl n).1]

example : pages [10, 11, 12, 13, 14, 15, 16] 4 ⟨some 3, some 1, none, none, none⟩ =
    [[11, 12, 13], [14, 15, 16], [], []] := by decide +kernel
example : pages [10, 11, 12, 13, 14, 15, 16] 4 ⟨some 3, some 1, none, none, some 2⟩ =
    [[11, 12], [13, 14], [15, 16], []] := by decide +kernel
example : width (some 3) (some 2) = some 2 := rfl
example : hexStr 300 = [49, 50, 67] := by decide +kernel

/-! ## C69: the server's pages -/

theorem serve_cut {α} (es : List α) (m : Nat) (top : Option Nat) (skip : Option Int)
    (tok : Option (List Nat)) (p : Nat) (hm : 0 < m) (ht : ∀ t, top = some t → m < t)
    (hp : emin ⟨top, skip, tok, none, some m⟩ = p) :
    serve es m top skip tok = ((es.drop p).take m, some (hexStr ((p + m : Nat) : Int))) := by
  have htop : top ≠ some 0 := by rintro rfl; have := ht 0 rfl; omega
  have heff : effLimit (some m) = some m := by cases m with | zero => omega | succ m => rfl
  have hc : cuts ⟨top, skip, tok, none, some m⟩ = some m := by
    unfold cuts
    rw [limit_eff]
    dsimp only
    rw [heff]
    cases top with
    | none => rfl
    | some t => dsimp only; rw [if_pos (ht t rfl)]
  unfold serve iterpage
  dsimp only
  rw [if_neg htop]
  have hmx : emax ⟨top, skip, tok, none, some m⟩ = some ((p : Int) + m) := by
    unfold emax; rw [hc, hp]
  rw [hmx]
  dsimp only
  have hrun := runTo_eq es p m 0
  rw [Int.zero_add] at hrun
  rw [hp, hrun]
  dsimp only
  congr 1
  by_cases hl : p + m < es.length
  · rw [if_pos hl]; simp [finish, nextTok, hc, hp]
  · rw [if_neg hl]; simp [finish, nextTok, hc, hp]

/-- C69: a request with no `$top`, or one above the server's limit, is answered with the first
`m` entities after `$skip`, and with a link that leads to the following `m`. -/
theorem C69_page {α} (es : List α) (m skip : Nat) (top : Option Nat) (hm : 0 < m)
    (ht : ∀ t, top = some t → m < t) :
    serve es m top (some skip) none = (pageSpec es skip m 0, some (hexStr ((skip + m : Nat) : Int))) := by
  rw [serve_cut es m top (some skip) none skip hm ht (by simp [emin])]
  simp [pageSpec]

/-- C69: a request with `$top` within the server's limit is answered with at most that many
entities and no link. -/
theorem C69_small_top {α} (es : List α) (m t skip : Nat) (ht0 : 0 < t) (htm : t ≤ m) :
    serve es m (some t) (some skip) none = ((es.drop skip).take t, none) := by
  have heff : effLimit (some m) = some m := by cases m with | zero => omega | succ m => rfl
  have hc : cuts ⟨some t, some skip, none, none, some m⟩ = none := by
    unfold cuts
    rw [limit_eff]
    dsimp only
    rw [heff]
    dsimp only
    rw [if_neg (by omega)]
  have hp : emin ⟨some t, some (skip : Int), none, none, some m⟩ = skip := by simp [emin]
  unfold serve iterpage
  dsimp only
  rw [if_neg (by intro h; injection h with h; omega)]
  have hmx : emax ⟨some t, some (skip : Int), none, none, some m⟩ = some ((skip : Int) + t) := by
    unfold emax; rw [hc, hp]; rfl
  rw [hmx]
  dsimp only
  have hrun := runTo_eq es skip t 0
  rw [Int.zero_add] at hrun
  rw [hp, hrun]
  dsimp only
  congr 1
  by_cases hl : skip + t < es.length
  · rw [if_pos hl]; simp [finish, nextTok, hc]
  · rw [if_neg hl]; simp [finish, nextTok, hc]

theorem serve_token {α} (es : List α) (m p : Nat) (hm : 0 < m) :
    serve es m none none (some (hexStr (p : Int))) =
      ((es.drop p).take m, some (hexStr ((p + m : Nat) : Int))) :=
  serve_cut es m none none _ p hm (by simp) (by simp [emin, intHex_hexStr])

theorem follow_eq {α} (es : List α) (m : Nat) (hm : 0 < m) : ∀ n p,
    follow es m n ((es.drop p).take m, some (hexStr ((p + m : Nat) : Int))) =
      (List.range (n + 1)).map (pageSpec es p m)
  | 0, p => by simp [follow, pageSpec]
  | n + 1, p => by
    unfold follow
    dsimp only
    rw [serve_token es m (p + m) hm, follow_eq es m hm n (p + m), ← range_succ_map]

/-- C69: the pages reached by following the links are consecutive: joined together they are the
entities from `$skip` on, each once and in order, up to the number of pages read. -/
theorem C69_links_consecutive {α} (es : List α) (m skip : Nat) (top : Option Nat) (hm : 0 < m)
    (ht : ∀ t, top = some t → m < t) (n : Nat) :
    (follow es m n (serve es m top (some skip) none)).flatten =
      (es.drop skip).take ((n + 1) * m) := by
  rw [serve_cut es m top (some skip) none skip hm ht (by simp [emin]), follow_eq es m hm n skip,
    pageSpec_flatten]

/-- C69: pyslet's own client, which also stops at an empty page, gets each entity from `$skip` on
exactly once and then stops. -/
theorem C69_client_complete {α} (es : List α) (m skip : Nat) (hm : 0 < m) :
    ∃ fuel, clientLoop es m fuel (serve es m none (some skip) none) = some (es.drop skip) := by
  have key : ∀ fuel p, es.length < p + fuel →
      clientLoop es m fuel ((es.drop p).take m, some (hexStr ((p + m : Nat) : Int))) =
        some (es.drop p) ∨ fuel = 0 := by
    intro fuel
    induction fuel with
    | zero => intro p _; right; rfl
    | succ fuel ih =>
      intro p hlt
      left
      unfold clientLoop
      dsimp only
      by_cases hnil : (es.drop p).take m = []
      · rw [if_pos hnil]
        have : es.drop p = [] := by
          rw [List.take_eq_nil_iff] at hnil
          rcases hnil with h | h
          · omega
          · exact h
        rw [this]
      · rw [if_neg hnil, serve_token es m (p + m) hm]
        have hpl : p < es.length := by
          apply Nat.lt_of_not_le
          intro hle
          apply hnil
          rw [List.drop_eq_nil_of_le hle]; simp
        rcases ih (p + m) (by omega) with h | h
        · rw [h]
          simp only [Option.map]
          rw [← List.drop_drop, List.take_append_drop]
        · omega
  refine ⟨es.length + 1, ?_⟩
  rw [serve_cut es m none (some skip) none skip hm (by simp) (by simp [emin])]
  rcases key (es.length + 1) skip (by omega) with h | h
  · exact h
  · omega

/-- C69, violated: the link is there even on the last page and on pages past the end, so a client
that follows the links until there is none never stops: whatever the collection, after any number
of links there is one more page. -/
theorem C69_violation_links_never_end {α} (es : List α) (m skip : Nat) (hm : 0 < m) (n : Nat) :
    (follow es m n (serve es m none (some skip) none)).length = n + 1 := by
  rw [serve_cut es m none (some skip) none skip hm (by simp) (by simp [emin]),
    follow_eq es m hm n skip]
  simp

/-- C69, violated: `$top` above the server's limit is dropped from the link, so following the
links gives more entities than were asked for. -/
theorem C69_violation_top_exceeded :
    ∃ (es : List Nat) (m t : Nat), 0 < m ∧
      t < ((follow es m 1 (serve es m (some t) (some 0) none)).flatten).length :=
  ⟨[1, 2, 3, 4], 2, 3, by decide, by decide +kernel⟩

end Verif.OData.Paging
