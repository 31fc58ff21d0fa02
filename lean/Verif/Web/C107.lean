import Verif.Web.Cipher
/-!
# C107: theorems about application keys
-/
namespace Verif.Web
open Text (decStr decVal isDigit)

/-! ### Texts -/

theorem digit_ne {c : Nat} (h : isDigit c = true) (x : Nat) (hx : x < 48 ∨ 57 < x) : c ≠ x := by
  simp only [isDigit, Bool.and_eq_true, decide_eq_true_eq] at h
  omega

theorem b64_no_colon (d : Bytes) (h : ∀ b ∈ d, b < 256) : 58 ∉ Auth.b64encode d := by
  intro hm
  rcases Auth.b64encode_chars d h 58 hm with h | h | h
  · revert h; unfold Http.TokByte; decide
  · omega
  · omega

theorem take_stop (p : Nat → Bool) (a : List Nat) (x : Nat) (r : List Nat) (ha : ∀ c ∈ a, p c = true) (hx : p x = false) :
    (a ++ x :: r).takeWhile p = a ∧ (a ++ x :: r).dropWhile p = x :: r := by
  induction a with
  | nil => simp [hx]
  | cons c a ih =>
    have := ih (fun y hy => ha y (by simp [hy]))
    simp [ha c (by simp), this.1, this.2]

theorem splitData_text (n : Nat) (d : Bytes) (h : ∀ b ∈ d, b < 256) : splitData (dataText n d) = some (n, d) := by
  have key := take_stop (· ≠ 58) (decStr n) 58 (Auth.b64encode d)
    (fun c hc => by simpa using digit_ne (Text.decStr_isDigit n c hc) 58 (by omega)) (by simp)
  have hs : splitColon (dataText n d) = some (decStr n, Auth.b64encode d) := by
    unfold splitColon dataText
    rw [key.2]
    dsimp only
    rw [if_neg (b64_no_colon d h), key.1]
  unfold splitData
  rw [hs]
  simp only [Option.bind_eq_bind, Option.bind_some]
  rw [if_pos ⟨Text.decStr_ne_nil n, by rw [List.all_eq_true]; exact Text.decStr_isDigit n⟩, Auth.b64_roundtrip d h]
  simp [Text.decVal_decStr]

/-! ### The loop ends -/

theorem find_put (c : Cipher) (n m : Nat) (k : Bytes) : (c.put n k).find m = if m = n then some k else c.find m := by
  unfold Cipher.find Cipher.put
  dsimp only
  rw [List.lookup_cons]
  by_cases h : m = n
  · subst h; simp
  · rw [if_neg h, beq_eq_false_iff_ne.2 h]
    dsimp only
    induction c.ciphers with
    | nil => rfl
    | cons e l ih =>
      rw [List.filter_cons]
      by_cases he : e.1 = n
      · rw [if_neg (by simp [he]), ih, List.lookup_cons, beq_eq_false_iff_ne.2 (by rw [he]; exact h)]
      · rw [if_pos (by simp [he]), List.lookup_cons, List.lookup_cons, ih]

/-- Every entry gives the key of the one below it. -/
inductive Chain : List (Nat × Bytes × Option Nat) → Prop
  | one (n : Nat) : Chain [(n, [], none)]
  | cons {m n : Nat} {d d' : Bytes} {x : Option Nat} {st} : Chain ((n, d, x) :: st) → Chain ((m, d', some n) :: (n, d, x) :: st)

theorem getLoop_down (A : Alg) (ks : KeySet) {st : List (Nat × Bytes × Option Nat)} (hc : Chain st) :
    ∀ (f : Nat) (c : Cipher), st.length ≤ f → (∀ e r, st = e :: r → (c.find e.1).isSome = true) → (getLoop A ks f c st).2 ≠ .fuel := by
  induction hc with
  | one n =>
    intro f c hf h
    obtain ⟨k, hk⟩ := Option.isSome_iff_exists.1 (h _ _ rfl)
    cases f with
    | zero => simp at hf
    | succ f => rw [getLoop]; simp only [hk]; simp
  | @cons m n d d' x st hc ih =>
    intro f c hf h
    obtain ⟨k, hk⟩ := Option.isSome_iff_exists.1 (h _ _ rfl)
    cases f with
    | zero => simp at hf
    | succ f =>
      rw [getLoop]
      simp only [hk]
      split
      · refine ih f _ (by simpa using hf) ?_
        intro e r he
        cases he
        rw [find_put, if_pos rfl]; rfl
      · simp

theorem getLoop_up (A : Alg) (ks : KeySet) : ∀ (m f : Nat) (c : Cipher) (st : List (Nat × Bytes × Option Nat)), Chain st →
    st.length + m = 102 → 1 ≤ m → 204 ≤ f + st.length → (getLoop A ks f c st).2 ≠ .fuel
  | m, f, c, st, hc, hm, h1, hf => by
    cases st with
    | nil => cases hc
    | cons e st =>
      obtain ⟨n, d, x⟩ := e
      cases hk : c.find n with
      | some k =>
        refine getLoop_down A ks hc f c (by omega) ?_
        intro e r he
        cases he
        simp [hk]
      | none =>
        cases f with
        | zero => simp at hf hm; omega
        | succ f =>
          rw [getLoop]
          simp only [hk]
          split
          · simp
          · split
            · simp
            · split
              · simp
              · rename_i hlen
                simp only [maxAge] at hlen
                cases m with
                | zero => omega
                | succ m =>
                  simp only [List.length_cons] at hm hf
                  exact getLoop_up A ks m f c _ (.cons hc) (by simp; omega) (by omega) (by simp; omega)

/-- The loop always ends: whatever is in the database. -/
theorem C107_ends (A : Alg) (ks : KeySet) (c : Cipher) (s : Str) : (decrypt A ks c s).2 ≠ .endless := by
  unfold decrypt
  split
  · simp
  · rename_i n d _
    have := getLoop_up A ks 101 (2 * maxAge + 3) c [(n, [], none)] (.one n) rfl (by omega) (by simp [maxAge])
    split <;> rename_i heq <;> try simp
    unfold getCipher at heq
    rw [heq] at this
    exact this rfl

/-! ### Invariants -/

/-- Every record is a key, enciphered with the next one. -/
def KeysOk (A : Alg) (K : Keys) (ks : KeySet) : Prop :=
  ∀ n text, ks.lookup n = some text → ∃ i r, n = K.num i ∧ Random r ∧ text = dataText (K.num (i + 1)) (A.enc (K.key (i + 1)) r (K.key i))

/-- A process with key number `j`. -/
structure ProcOk (K : Keys) (ks : KeySet) (c : Cipher) (j : Nat) : Prop where
  num : c.num = K.num j
  key : c.key = K.key j
  cur : c.find (K.num j) = some (K.key j)
  known : ∀ n k, c.find n = some k → ∃ i, i ≤ j ∧ n = K.num i ∧ k = K.key i
  old : ∀ n k t, c.old = some (n, k, t) → ∃ i, j = i + 1 ∧ n = K.num i ∧ c.find (K.num i) = some (K.key i)
  recs : ∀ i, i < j → (ks.lookup (K.num i)).isSome = true

theorem ProcOk.put {K : Keys} {ks : KeySet} {c : Cipher} {j : Nat} (h : ProcOk K ks c j) (i : Nat) (hi : i ≤ j) :
    ProcOk K ks (c.put (K.num i) (K.key i)) j where
  num := h.num
  key := h.key
  cur := by
    rw [find_put]
    split
    · rename_i e; rw [K.inj _ _ e]
    · exact h.cur
  known := by
    intro n k e
    rw [find_put] at e
    split at e
    · rename_i hn; cases e; exact ⟨i, hi, hn, rfl⟩
    · exact h.known n k e
  old := by
    intro n k t e
    obtain ⟨m, h1, h2, h3⟩ := h.old n k t e
    refine ⟨m, h1, h2, ?_⟩
    rw [find_put]
    split
    · rename_i e; rw [K.inj _ _ e]
    · exact h3
  recs := h.recs

/-- The keys between two of them are found. -/
theorem getLoop_resolve {A : Alg} (hA : Good A) (K : Keys) {ks : KeySet} (hks : KeysOk A K ks) {j : Nat} :
    ∀ (g : Nat) (i : Nat) (c : Cipher) (d : Bytes) (x : Option Nat) (st : List (Nat × Bytes × Option Nat)), ProcOk K ks c j →
    i + g ≤ j → (c.find (K.num (i + g))).isSome = true → st.length + g ≤ maxAge →
    ∃ n c', n ≤ 2 * g ∧ ProcOk K ks c' j ∧ c'.find (K.num i) = some (K.key i) ∧
      ∀ f, getLoop A ks (n + f) c ((K.num i, d, x) :: st) = getLoop A ks f c' ((K.num i, d, x) :: st)
  | g, i, c, d, x, st, hp, hg, hfd, hs => by
    cases hf : c.find (K.num i) with
    | some k =>
      refine ⟨0, c, by omega, hp, ?_, fun f => by rw [Nat.zero_add]⟩
      obtain ⟨m, _, h2, h3⟩ := hp.known _ _ hf
      rw [hf, h3, K.inj _ _ h2]
    | none =>
      cases g with
      | zero =>
        rw [Nat.add_zero, hf] at hfd; cases hfd
      | succ g =>
        obtain ⟨text, ht⟩ := Option.isSome_iff_exists.1 (hp.recs i (by omega))
        obtain ⟨m, r, h1, h2, h3⟩ := hks _ _ ht
        have hm : m = i := (K.inj _ _ h1).symm
        subst hm
        have hsplit : splitData text = some (K.num (m + 1), A.enc (K.key (m + 1)) r (K.key m)) := by
          rw [h3]
          exact splitData_text _ _ (hA.bytes _ _ _ h2.2 (K.bytes m))
        obtain ⟨n, c', hn, hp', hf', hrun⟩ := getLoop_resolve hA K hks g (m + 1) c (A.enc (K.key (m + 1)) r (K.key m)) (some (K.num m))
          ((K.num m, d, x) :: st) hp (by omega)
          (by rw [show m + 1 + g = m + (g + 1) by omega]; exact hfd) (by simp; omega)
        refine ⟨n + 2, c'.put (K.num m) (K.key m), by omega, hp'.put m (by omega), by rw [find_put, if_pos rfl], ?_⟩
        intro f
        rw [show n + 2 + f = (n + (f + 1)) + 1 by omega, getLoop]
        simp only [hf, ht, hsplit]
        rw [if_neg (by omega), hrun, getLoop]
        simp only [hf']
        rw [if_pos (hA.nonempty _ _ _ h2.1 (K.nonempty m)), hA.dec_enc _ _ _ h2.2 h2.1]

theorem getCipher_near {A : Alg} (hA : Good A) (K : Keys) {ks : KeySet} (hks : KeysOk A K ks) {c : Cipher} {i m j : Nat}
    (hp : ProcOk K ks c j) (him : i ≤ m) (hm : (c.find (K.num m)).isSome = true) (hage : m ≤ i + maxAge) :
    ∃ c', ProcOk K ks c' j ∧ getCipher A ks c (K.num i) = (c', .key (K.key i)) := by
  have hmj : m ≤ j := by
    obtain ⟨k, hk⟩ := Option.isSome_iff_exists.1 hm
    obtain ⟨q, h1, h2, _⟩ := hp.known _ _ hk
    have := K.inj _ _ h2
    omega
  obtain ⟨n, c', hn, hp', hf, hrun⟩ := getLoop_resolve hA K hks (m - i) i c [] none [] hp (by omega)
    (by rw [show i + (m - i) = m by omega]; exact hm) (by simp; omega)
  refine ⟨c', hp', ?_⟩
  unfold getCipher
  rw [show 2 * maxAge + 3 = n + ((2 * maxAge + 2 - n) + 1) by omega, hrun, getLoop]
  simp only [hf]
  rfl

theorem getCipher_ok {A : Alg} (hA : Good A) (K : Keys) {ks : KeySet} (hks : KeysOk A K ks) {c : Cipher} {i j : Nat}
    (hp : ProcOk K ks c j) (hij : i ≤ j) (hage : j ≤ i + maxAge) :
    ∃ c', ProcOk K ks c' j ∧ getCipher A ks c (K.num i) = (c', .key (K.key i)) :=
  getCipher_near hA K hks hp hij (by rw [hp.cur]; rfl) hage

theorem getLoop_lost {A : Alg} (hA : Good A) (K : Keys) {ks : KeySet} (hks : KeysOk A K ks) (c : Cipher) :
    ∀ (f i : Nat) (d : Bytes) (x : Option Nat) (st : List (Nat × Bytes × Option Nat)),
    (∀ m, i ≤ m → m + st.length ≤ i + maxAge → c.find (K.num m) = none) → st.length ≤ maxAge → maxAge + 1 ≤ f + st.length →
    getLoop A ks f c ((K.num i, d, x) :: st) = (c, .tooOld)
  | 0, i, d, x, st, _, h2, h3 => by omega
  | f + 1, i, d, x, st, h1, h2, h3 => by
    rw [getLoop]
    simp only [h1 i (Nat.le_refl _) (by omega)]
    cases hl : ks.lookup (K.num i) with
    | none => rfl
    | some text =>
      obtain ⟨m, r, e1, e2, e3⟩ := hks _ _ hl
      have hm : m = i := (K.inj _ _ e1).symm
      subst hm
      have hsplit : splitData text = some (K.num (m + 1), A.enc (K.key (m + 1)) r (K.key m)) := by
        rw [e3]
        exact splitData_text _ _ (hA.bytes _ _ _ e2.2 (K.bytes m))
      simp only [hsplit]
      split
      · rfl
      · refine getLoop_lost hA K hks c f (m + 1) _ _ _ ?_ (by simp; omega) (by simp; omega)
        intro q hq1 hq2
        simp only [List.length_cons] at hq2
        exact h1 q (by omega) (by omega)

theorem getCipher_lost {A : Alg} (hA : Good A) (K : Keys) {ks : KeySet} (hks : KeysOk A K ks) {c : Cipher} {i : Nat}
    (h : ∀ m, i ≤ m → m ≤ i + maxAge → c.find (K.num m) = none) :
    getCipher A ks c (K.num i) = (c, .tooOld) :=
  getLoop_lost hA K hks c _ i [] none [] (fun m h1 h2 => h m h1 (by simpa using h2)) (by simp) (by simp [maxAge])

/-- Whatever number is asked for, the process stays as it should be. -/
theorem getCipher_inv {A : Alg} (hA : Good A) (K : Keys) {ks : KeySet} (hks : KeysOk A K ks) {c : Cipher} {j : Nat}
    (hp : ProcOk K ks c j) (n : Nat) : ProcOk K ks (getCipher A ks c n).1 j := by
  by_cases hn : ∃ i, n = K.num i
  · obtain ⟨i, rfl⟩ := hn
    by_cases hm : ∃ m, i ≤ m ∧ m ≤ i + maxAge ∧ (c.find (K.num m)).isSome = true
    · obtain ⟨m, h1, h2, h3⟩ := hm
      obtain ⟨c', h4, h5⟩ := getCipher_near hA K hks hp h1 h3 h2
      rw [h5]; exact h4
    · rw [getCipher_lost hA K hks]
      · exact hp
      · intro m h1 h2
        cases h : c.find (K.num m) with
        | none => rfl
        | some k => exact absurd ⟨m, h1, h2, by rw [h]; rfl⟩ hm
  · unfold getCipher
    rw [show 2 * maxAge + 3 = (2 * maxAge + 2) + 1 by omega, getLoop]
    have h1 : c.find n = none := by
      cases h : c.find n with
      | none => rfl
      | some k =>
        obtain ⟨i, _, h2, _⟩ := hp.known _ _ h
        exact absurd ⟨i, h2⟩ hn
    have h2 : ks.lookup n = none := by
      cases h : ks.lookup n with
      | none => rfl
      | some k =>
        obtain ⟨i, _, h2, _⟩ := hks _ _ h
        exact absurd ⟨i, h2⟩ hn
    simp only [h1, h2]
    exact hp

theorem decrypt_inv {A : Alg} (hA : Good A) (K : Keys) {ks : KeySet} (hks : KeysOk A K ks) {c : Cipher} {j : Nat}
    (hp : ProcOk K ks c j) (s : Str) : ProcOk K ks (decrypt A ks c s).1 j := by
  unfold decrypt
  split
  · exact hp
  · rename_i n d _
    have := getCipher_inv hA K hks hp n
    split <;> rename_i heq <;> rw [heq] at this <;> exact this

theorem decrypt_ok {A : Alg} (hA : Good A) (K : Keys) {ks : KeySet} (hks : KeysOk A K ks) {c : Cipher} {i j : Nat}
    (hp : ProcOk K ks c j) (hij : i ≤ j) (hage : j ≤ i + maxAge) (r d : Bytes) (hr : Random r) (hd : ∀ b ∈ d, b < 256) :
    (decrypt A ks c (dataText (K.num i) (A.enc (K.key i) r d))).2 = .val d := by
  obtain ⟨c', _, h⟩ := getCipher_ok hA K hks hp hij hage
  unfold decrypt
  rw [splitData_text _ _ (hA.bytes _ _ _ hr.2 hd)]
  dsimp only
  rw [h]
  dsimp only
  rw [hA.dec_enc _ _ _ hr.2 hr.1]

theorem decrypt_lost {A : Alg} (hA : Good A) (K : Keys) {ks : KeySet} (hks : KeysOk A K ks) {c : Cipher} {i : Nat}
    (h : ∀ m, i ≤ m → m ≤ i + maxAge → c.find (K.num m) = none) (r d : Bytes) (hr : Random r) (hd : ∀ b ∈ d, b < 256) :
    (decrypt A ks c (dataText (K.num i) (A.enc (K.key i) r d))).2 = .runtimeError := by
  unfold decrypt
  rw [splitData_text _ _ (hA.bytes _ _ _ hr.2 hd)]
  dsimp only
  rw [getCipher_lost hA K hks h]

theorem lookup_mono {ks : KeySet} {n m : Nat} {t : Str} (h : (ks.lookup m).isSome = true) : (List.lookup m ((n, t) :: ks)).isSome = true := by
  rw [List.lookup_cons]
  split
  · rfl
  · exact h

theorem ProcOk.mono {K : Keys} {ks ks' : KeySet} {c : Cipher} {j : Nat} (h : ProcOk K ks c j)
    (hk : ∀ n, (ks.lookup n).isSome = true → (ks'.lookup n).isSome = true) : ProcOk K ks' c j :=
  ⟨h.num, h.key, h.cur, h.known, h.old, fun i hi => hk _ (h.recs i hi)⟩

theorem newCipher_ok (K : Keys) (ks : KeySet) (j : Nat) (h : ∀ i, i < j → (ks.lookup (K.num i)).isSome = true) :
    ProcOk K ks (newCipher (K.num j) (K.key j)) j where
  num := rfl
  key := rfl
  cur := by simp [newCipher, Cipher.find]
  known := by
    intro n k e
    unfold newCipher Cipher.find at e
    dsimp only at e
    rw [List.lookup_cons] at e
    split at e
    · rename_i hn
      cases e
      exact ⟨j, Nat.le_refl _, by simpa using hn, rfl⟩
    · cases e
  old := by intro n k t e; cases e
  recs := h

theorem changeKey_keys {A : Alg} (K : Keys) {ks : KeySet} (hks : KeysOk A K ks) {c : Cipher} {j : Nat}
    (hp : ProcOk K ks c j) (t : Nat) (r : Bytes) (hr : Random r) :
    KeysOk A K (changeKey A ks c (K.num (j + 1)) (K.key (j + 1)) t r).1 := by
  unfold changeKey
  dsimp only
  split
  · exact hks
  · intro n text h
    rw [List.lookup_cons] at h
    split at h
    · rename_i e
      cases h
      exact ⟨j, r, by rw [beq_iff_eq] at e; rw [e, hp.num], hr, by rw [hp.key]⟩
    · exact hks n text h

theorem changeKey_mono (A : Alg) (ks : KeySet) (c : Cipher) (num : Nat) (key : Bytes) (t : Nat) (r : Bytes) (n : Nat)
    (h : (ks.lookup n).isSome = true) : ((changeKey A ks c num key t r).1.lookup n).isSome = true := by
  unfold changeKey
  dsimp only
  split
  · exact h
  · exact lookup_mono h

theorem changeKey_proc {A : Alg} (K : Keys) {ks : KeySet} {c : Cipher} {j : Nat}
    (hp : ProcOk K ks c j) (t : Nat) (r : Bytes) :
    ProcOk K (changeKey A ks c (K.num (j + 1)) (K.key (j + 1)) t r).1 (changeKey A ks c (K.num (j + 1)) (K.key (j + 1)) t r).2 (j + 1) where
  num := rfl
  key := rfl
  cur := by
    show (c.put _ _).find _ = _
    rw [find_put, if_pos rfl]
  known := by
    intro n k e
    have e : (c.put (K.num (j + 1)) (K.key (j + 1))).find n = some k := e
    rw [find_put] at e
    split at e
    · rename_i hn; cases e; exact ⟨j + 1, Nat.le_refl _, hn, rfl⟩
    · obtain ⟨i, h1, h2⟩ := hp.known n k e
      exact ⟨i, by omega, h2⟩
  old := by
    intro n k t' e
    have e : some (c.num, c.key, t) = some (n, k, t') := e
    cases e
    refine ⟨j, rfl, hp.num, ?_⟩
    show (c.put _ _).find _ = _
    rw [find_put, if_neg]
    · exact hp.cur
    · intro e; have := K.inj _ _ e; omega
  recs := by
    intro i hi
    by_cases h : i = j
    · subst h
      unfold changeKey
      dsimp only
      rw [hp.num]
      split
      · assumption
      · simp
    · exact changeKey_mono _ _ _ _ _ _ _ _ (hp.recs i (by omega))

theorem currentCipher_ok {K : Keys} {ks : KeySet} {c : Cipher} {j : Nat} (hp : ProcOk K ks c j) (now : Nat) :
    ProcOk K ks (currentCipher c now).1 j ∧ ∃ i, (i = j ∨ i + 1 = j) ∧ (currentCipher c now).2 = some (K.num i, K.key i) := by
  have hcur : (c.find c.num).map (fun k => (c.num, k)) = some (K.num j, K.key j) := by rw [hp.num, hp.cur]; rfl
  unfold currentCipher
  split
  · rename_i n k t ho
    split
    · exact ⟨hp, j, Or.inl rfl, hcur⟩
    · split
      · exact ⟨⟨hp.num, hp.key, hp.cur, hp.known, (by intro n k t e; cases e), hp.recs⟩, j, Or.inl rfl, hcur⟩
      · obtain ⟨i, h1, h2, h3⟩ := hp.old n k t ho
        refine ⟨hp, i, Or.inr h1.symm, ?_⟩
        dsimp only
        rw [h2, h3]; rfl
  · exact ⟨hp, j, Or.inl rfl, hcur⟩

/-! ### Histories -/

/-- An application: the database and its processes. -/
structure World where
  keys : KeySet
  procs : List Cipher

/-- The histories of an application whose keys are `K`: a process is started with a key that some process has, or had
before; a process changes to the key after its own; processes encrypt (what they encrypt is remembered) and decrypt
any text. -/
inductive History (A : Alg) (K : Keys) : World → List (Bytes × Str) → Prop
  | init : History A K ⟨[], [newCipher (K.num 0) (K.key 0)]⟩ []
  | start {w log c j i} : History A K w log → c ∈ w.procs → c.num = K.num j → i ≤ j →
      History A K ⟨w.keys, newCipher (K.num i) (K.key i) :: w.procs⟩ log
  | change {w log a c b j t r} : History A K w log → w.procs = a ++ c :: b → c.num = K.num j → Random r →
      History A K ⟨(changeKey A w.keys c (K.num (j + 1)) (K.key (j + 1)) t r).1,
        a ++ (changeKey A w.keys c (K.num (j + 1)) (K.key (j + 1)) t r).2 :: b⟩ log
  | encrypt {w log a c b now r d s} : History A K w log → w.procs = a ++ c :: b → Random r → (∀ x ∈ d, x < 256) →
      (encrypt A c now r d).2 = some s →
      History A K ⟨w.keys, a ++ (encrypt A c now r d).1 :: b⟩ ((d, s) :: log)
  | decrypt {w log a c b s} : History A K w log → w.procs = a ++ c :: b →
      History A K ⟨w.keys, a ++ (decrypt A w.keys c s).1 :: b⟩ log

theorem history_ok {A : Alg} (hA : Good A) {K : Keys} {w : World} {log : List (Bytes × Str)} (h : History A K w log) :
    KeysOk A K w.keys ∧ (∀ c ∈ w.procs, ∃ j, ProcOk K w.keys c j) ∧
    ∀ e ∈ log, ∃ i r, Random r ∧ (∀ b ∈ e.1, b < 256) ∧ e.2 = dataText (K.num i) (A.enc (K.key i) r e.1) := by
  induction h with
  | init =>
    refine ⟨(by intro n t h; cases h), ?_, by simp⟩
    intro c hc
    rw [List.mem_singleton] at hc
    subst hc
    exact ⟨0, newCipher_ok K [] 0 (by intro i hi; omega)⟩
  | @start w log c j i _ hc hn hij ih =>
    refine ⟨ih.1, ?_, ih.2.2⟩
    intro x hx
    rcases List.mem_cons.1 hx with rfl | hx
    · obtain ⟨j', hp⟩ := ih.2.1 c hc
      have : j' = j := K.inj _ _ (by rw [← hp.num, hn])
      subst this
      exact ⟨i, newCipher_ok K _ i fun m hm => hp.recs m (by omega)⟩
    · exact ih.2.1 x hx
  | @change w log a c b j t r _ hw hn hr ih =>
    obtain ⟨j', hp⟩ := ih.2.1 c (by rw [hw]; simp)
    have : j' = j := K.inj _ _ (by rw [← hp.num, hn])
    subst this
    refine ⟨changeKey_keys K ih.1 hp t r hr, ?_, ih.2.2⟩
    intro x hx
    have hmem : x = (changeKey A w.keys c (K.num (j' + 1)) (K.key (j' + 1)) t r).2 ∨ x ∈ w.procs := by
      rw [hw]
      simp only [List.mem_append, List.mem_cons] at hx ⊢
      rcases hx with h | h | h
      · exact Or.inr (Or.inl h)
      · exact Or.inl h
      · exact Or.inr (Or.inr (Or.inr h))
    rcases hmem with rfl | hx
    · exact ⟨_, changeKey_proc K hp t r⟩
    · obtain ⟨m, hm⟩ := ih.2.1 x hx
      exact ⟨m, hm.mono fun n hn => changeKey_mono A w.keys c (K.num (j' + 1)) (K.key (j' + 1)) t r n hn⟩
  | @encrypt w log a c b now r d s _ hw hr hd hs ih =>
    obtain ⟨j, hp⟩ := ih.2.1 c (by rw [hw]; simp)
    obtain ⟨h1, i, _, h2⟩ := currentCipher_ok hp now
    refine ⟨ih.1, ?_, ?_⟩
    · intro x hx
      simp only [List.mem_append, List.mem_cons] at hx
      rcases hx with h | rfl | h
      · exact ih.2.1 x (by rw [hw]; simp [h])
      · exact ⟨j, h1⟩
      · exact ih.2.1 x (by rw [hw]; simp [h])
    · intro e he
      rcases List.mem_cons.1 he with rfl | he
      · refine ⟨i, r, hr, hd, ?_⟩
        unfold encrypt at hs
        dsimp only at hs
        rw [h2] at hs
        cases hs; rfl
      · exact ih.2.2 e he
  | @decrypt w log a c b s _ hw ih =>
    obtain ⟨j, hp⟩ := ih.2.1 c (by rw [hw]; simp)
    refine ⟨ih.1, ?_, ih.2.2⟩
    intro x hx
    simp only [List.mem_append, List.mem_cons] at hx
    rcases hx with h | rfl | h
    · exact ih.2.1 x (by rw [hw]; simp [h])
    · exact ⟨j, decrypt_inv hA K ih.1 hp s⟩
    · exact ih.2.1 x (by rw [hw]; simp [h])

theorem proc_index {K : Keys} {ks : KeySet} {c : Cipher} {j j' : Nat} (h : ProcOk K ks c j') (hn : c.num = K.num j) : j' = j :=
  K.inj _ _ (by rw [← h.num, hn])

/-- C107: in every history of an application, whatever was encrypted by any of its processes is decrypted by every
process whose key is the same or at most 100 changes newer; a process that has not heard of the key yet refuses the
text. -/
theorem C107_decrypt {A : Alg} (hA : Good A) {K : Keys} {w : World} {log : List (Bytes × Str)} (h : History A K w log)
    (d : Bytes) (s : Str) (hlog : (d, s) ∈ log) :
    ∃ i b, s = decStr (K.num i) ++ 58 :: b ∧
      ∀ c ∈ w.procs, ∀ j, c.num = K.num j →
        (i ≤ j → j ≤ i + 100 → (decrypt A w.keys c s).2 = .val d) ∧
        (j < i → (decrypt A w.keys c s).2 = .runtimeError) := by
  obtain ⟨hks, hprocs, hl⟩ := history_ok hA h
  obtain ⟨i, r, hr, hd, e⟩ := hl _ hlog
  dsimp only at hd e
  refine ⟨i, _, e, ?_⟩
  intro c hc j hj
  obtain ⟨j', hp⟩ := hprocs c hc
  have := proc_index hp hj
  subst this
  rw [e]
  refine ⟨fun h1 h2 => decrypt_ok hA K hks hp h1 h2 r d hr hd, fun h1 => decrypt_lost hA K hks ?_ r d hr hd⟩
  intro m hm _
  cases hf : c.find (K.num m) with
  | none => rfl
  | some k =>
    obtain ⟨q, h3, h4, _⟩ := hp.known _ _ hf
    have := K.inj _ _ h4
    omega

/-- C107: a process that is started with a key more than 100 changes newer refuses the text. -/
theorem C107_too_old {A : Alg} (hA : Good A) {K : Keys} {w : World} {log : List (Bytes × Str)} (h : History A K w log)
    (i j : Nat) (r d : Bytes) (hr : Random r) (hd : ∀ b ∈ d, b < 256) (hij : i + 100 < j) :
    (decrypt A w.keys (newCipher (K.num j) (K.key j)) (dataText (K.num i) (A.enc (K.key i) r d))).2 = .runtimeError := by
  obtain ⟨hks, _, _⟩ := history_ok hA h
  refine decrypt_lost hA K hks ?_ r d hr hd
  intro m h1 h2
  unfold newCipher Cipher.find
  dsimp only
  rw [List.lookup_cons, beq_eq_false_iff_ne.2]
  · rfl
  · intro e
    have := K.inj _ _ e
    simp only [maxAge] at h2
    omega

/-- C107: after a change of key, a process encrypts with the key before until the given time, so that processes that
have not changed their key can still decrypt; and with the new key from then on. -/
theorem C107_changeover {A : Alg} (hA : Good A) {K : Keys} {w : World} {log : List (Bytes × Str)} (h : History A K w log)
    (c : Cipher) (hc : c ∈ w.procs) (j : Nat) (hj : c.num = K.num j) (t : Nat) (ht : t ≠ 0) (r r' d : Bytes) (now : Nat) :
    let c' := (changeKey A w.keys c (K.num (j + 1)) (K.key (j + 1)) t r').2
    (now ≤ t → (encrypt A c' now r d).2 = some (dataText (K.num j) (A.enc (K.key j) r d)) ∧
      (Random r → (∀ b ∈ d, b < 256) → ∀ x ∈ w.procs, x.num = K.num j →
        (decrypt A w.keys x (dataText (K.num j) (A.enc (K.key j) r d))).2 = .val d)) ∧
    (t < now → (encrypt A c' now r d).2 = some (dataText (K.num (j + 1)) (A.enc (K.key (j + 1)) r d))) := by
  obtain ⟨hks, hprocs, _⟩ := history_ok hA h
  obtain ⟨j', hp⟩ := hprocs c hc
  have := proc_index hp hj
  subst this
  intro c'
  have hp' := changeKey_proc (A := A) K hp t r'
  have hold : c'.old = some (c.num, c.key, t) := rfl
  constructor
  · intro hnow
    constructor
    · unfold encrypt currentCipher
      rw [hold]
      dsimp only
      rw [if_neg ht, if_neg (by omega)]
      obtain ⟨i, h1, h2, h3⟩ := hp'.old _ _ _ hold
      have hi : j' = i := by omega
      subst hi
      dsimp only
      rw [h2, h3]; rfl
    · intro hr hd x hx hxn
      obtain ⟨m, hm⟩ := hprocs x hx
      have := proc_index hm hxn
      subst this
      exact decrypt_ok hA K hks hm (Nat.le_refl _) (by omega) r d hr hd
  · intro hnow
    unfold encrypt currentCipher
    rw [hold]
    dsimp only
    rw [if_neg ht, if_pos (by omega)]
    dsimp only
    have h3 := hp'.cur
    have h4 : c'.num = K.num (j' + 1) := rfl
    have h5 : c'.find (K.num (j' + 1)) = some (K.key (j' + 1)) := h3
    rw [h4, h5]; rfl

/-! ### The ciphers of the package meet the conditions -/

theorem plain_good (sha : Bytes → Bytes) : Good (plain sha) where
  dec_enc _ _ _ _ _ := rfl
  bytes _ _ _ _ h := h
  nonempty _ _ _ _ h := h

theorem aes_good (sha : Bytes → Bytes) (E D : Bytes → Bytes → Bytes → Bytes) (h1 : ∀ k v d, D k v (E k v d) = d)
    (h2 : ∀ k v d, (∀ b ∈ d, b < 256) → ∀ b ∈ E k v d, b < 256) : Good (aes sha E D) where
  dec_enc k r d _ h := by
    have e : (r.take 16).length = 16 := by rw [List.length_take]; omega
    show D (sha k) ((r.take 16 ++ E (sha k) (r.take 16) d).take 16) ((r.take 16 ++ E (sha k) (r.take 16) d).drop 16) = d
    rw [List.take_left' e, List.drop_left' e, h1]
  bytes k r d hr hd b hb := by
    have hb : b ∈ r.take 16 ++ E (sha k) (r.take 16) d := hb
    rcases List.mem_append.1 hb with hb | hb
    · exact hr b (List.mem_of_mem_take hb)
    · exact h2 _ _ _ hd b hb
  nonempty k r d hr _ := by
    show r.take 16 ++ E (sha k) (r.take 16) d ≠ []
    intro e
    have := congrArg List.length e
    simp only [List.length_append, List.length_take, List.length_nil] at this
    omega

/-- Keys numbered 0, 1, 2, ... -/
def demoKeys : Keys where
  num i := i
  key i := [i % 256]
  inj _ _ h := h
  bytes i b hb := by rw [List.mem_singleton] at hb; omega
  nonempty _ := by simp

/-- A process encrypts with key 0, changes its key, and another one is started with key 1. -/
example : ∃ w, History (plain id) demoKeys w [([7, 8], dataText 0 [7, 8])] ∧ w.procs.length = 2 ∧
    (w.procs.all fun c => c.num == 1) = true ∧ w.keys.length = 1 :=
  ⟨_, .start (c := (changeKey (plain id) [] (newCipher 0 [0]) 1 [1] 5 (List.replicate 16 0)).2) (j := 1)
      (.change (a := []) (b := []) (j := 0) (t := 5) (r := List.replicate 16 0)
        (.encrypt (a := []) (b := []) (now := 3) (r := List.replicate 16 0) .init rfl ⟨by decide, by decide⟩ (by decide) rfl)
        rfl rfl ⟨by decide, by decide⟩)
      (List.mem_singleton.2 rfl) rfl (Nat.le_refl _), by decide, by decide, by decide⟩

/-! ### What goes wrong -/

/-- A process changes its key twice, to take effect at 1000 and at 2000; at 500 it encrypts with the key that should
take effect at 1000, and a process with the key before cannot decrypt the text. -/
theorem C107_violation_two_changes :
    let a := changeKey (plain id) [] (newCipher 0 [0]) 1 [1] 1000 []
    let b := changeKey (plain id) a.1 a.2 2 [2] 2000 []
    (encrypt (plain id) b.2 500 [] [7]).2 = some (dataText 1 [7]) ∧
    (decrypt (plain id) b.1 (newCipher 0 [0]) (dataText 1 [7])).2 = .runtimeError := by
  decide +kernel

/-- The keys 0, 1, ..., 100 are followed by one that has number 0 again (which differs from the last 100 numbers), and by
102: what was encrypted with the key before the last change is lost. -/
def reused : KeySet × Cipher :=
  ((List.range 100).map (· + 1) ++ [0, 102]).foldl (fun s n => changeKey (plain id) s.1 s.2 n [n + 1] 0 []) ([], newCipher 0 [1])

theorem C107_violation_reused_number :
    (decrypt (plain id) reused.1 (newCipher 102 [103]) (dataText 0 [7])).2 = .runtimeError := by
  decide +kernel

end Verif.Web
