import Verif.Web.C107
import Verif.Uri.EscapeProps
import Verif.OData.C61
/-!
# C107: signatures
-/
namespace Verif.Web
open Text (decStr decVal isDigit)

theorem splitSig_step (n : Nat) (a r : Str) (h : 45 ∉ a) : splitSig (n + 1) (a ++ 45 :: r) = a :: splitSig n r := by
  have key := take_stop (· ≠ 45) a 45 r (fun c hc => by simp; intro e; exact h (e ▸ hc)) (by simp)
  rw [splitSig, key.2, key.1]

theorem splitSig_last (n : Nat) (a : Str) (h : 45 ∉ a) : splitSig (n + 1) a = a :: List.replicate (n + 1) [] := by
  rw [splitSig]
  have key : a.dropWhile (· ≠ 45) = [] := by
    induction a with
    | nil => rfl
    | cons c a ih =>
      rw [List.dropWhile_cons, if_pos (by simp; intro e; exact h (by simp [e]))]
      exact ih (fun e => h (by simp [e]))
  rw [key]

theorem dec_no_hyphen (n : Nat) : 45 ∉ decStr n := fun h => digit_ne (Text.decStr_isDigit n _ h) 45 (by omega) rfl

theorem hex_no_hyphen (b : Bytes) (h : ∀ x ∈ b, x < 256) : 45 ∉ b.flatMap Sql.hexlify2 := fun hm => by
  have := Sql.hexlify_isHex b h _ hm
  revert this; decide

theorem unhexlify_hex (b : Bytes) (h : ∀ x ∈ b, x < 256) : unhexlify (b.flatMap Sql.hexlify2) = some b := by
  unfold unhexlify
  rw [if_pos, Sql.hexBytes_hexlify b h]
  refine ⟨by rw [Sql.hexlify_length]; omega, ?_⟩
  rw [List.all_eq_true]
  exact Sql.hexlify_isHex b h

/-- A key that is found is the key with that number. -/
theorem getCipher_sound {A : Alg} (hA : Good A) (K : Keys) {ks : KeySet} (hks : KeysOk A K ks) {c : Cipher} {j : Nat}
    (hp : ProcOk K ks c j) (n : Nat) (k : Bytes) (h : (getCipher A ks c n).2 = .key k) : ∃ i, i ≤ j ∧ n = K.num i ∧ k = K.key i := by
  by_cases hn : ∃ i, n = K.num i
  · obtain ⟨i, rfl⟩ := hn
    by_cases hm : ∃ m, i ≤ m ∧ m ≤ i + maxAge ∧ (c.find (K.num m)).isSome = true
    · obtain ⟨m, h1, h2, h3⟩ := hm
      obtain ⟨c', h4, h5⟩ := getCipher_near hA K hks hp h1 h3 h2
      rw [h5] at h
      cases h
      obtain ⟨k', hk'⟩ := Option.isSome_iff_exists.1 h3
      obtain ⟨q, h6, h7, _⟩ := hp.known _ _ hk'
      have := K.inj _ _ h7
      exact ⟨i, by omega, rfl, rfl⟩
    · rw [getCipher_lost hA K hks] at h
      · cases h
      · intro m h1 h2
        cases h : c.find (K.num m) with
        | none => rfl
        | some k => exact absurd ⟨m, h1, h2, by rw [h]; rfl⟩ hm
  · exfalso
    unfold getCipher at h
    rw [show 2 * maxAge + 3 = (2 * maxAge + 2) + 1 by omega, getLoop] at h
    have h1 : c.find n = none := by
      cases h : c.find n with
      | none => rfl
      | some k =>
        obtain ⟨i, _, h2, _⟩ := hp.known _ _ h
        exact absurd ⟨i, h2⟩ hn
    have h2 : ks.lookup n = none := by
      cases h : ks.lookup n with
      | none => rfl
      | some k =>
        obtain ⟨i, _, h2, _⟩ := hks _ _ h
        exact absurd ⟨i, h2⟩ hn
    simp only [h1, h2] at h
    cases h

/-- What `int()` does with a decimal number. -/
def ReadsInt (toInt : Str → Option Nat) : Prop := ∀ n, toInt (decStr n) = some n

theorem splitSig_sign (n : Nat) (a b : Bytes) (ha : ∀ x ∈ a, x < 256) (hb : ∀ x ∈ b, x < 256) :
    splitSig 3 (decStr n ++ 45 :: (a.flatMap Sql.hexlify2 ++ 45 :: b.flatMap Sql.hexlify2)) =
      [decStr n, a.flatMap Sql.hexlify2, b.flatMap Sql.hexlify2, []] := by
  rw [splitSig_step _ _ _ (dec_no_hyphen n), splitSig_step _ _ _ (hex_no_hyphen a ha), splitSig_last _ _ (hex_no_hyphen b hb)]
  rfl

theorem splitSig_ascii (n : Nat) (a b : Bytes) (r : Str) (ha : ∀ x ∈ a, x < 256) (hb : ∀ x ∈ b, x < 256) :
    splitSig 3 (decStr n ++ 45 :: (a.flatMap Sql.hexlify2 ++ 45 :: b.flatMap Sql.hexlify2) ++ 45 :: r) =
      [decStr n, a.flatMap Sql.hexlify2, b.flatMap Sql.hexlify2, r] := by
  rw [List.append_assoc, List.cons_append, List.append_assoc, List.cons_append]
  rw [splitSig_step _ _ _ (dec_no_hyphen n), splitSig_step _ _ _ (hex_no_hyphen a ha), splitSig_step _ _ _ (hex_no_hyphen b hb)]
  rfl

/-- C107: what a process signs is verified by every process whose key is the same or at most 100 changes newer. -/
theorem C107_sign {A : Alg} (hA : Good A) {H : Bytes → Bytes → Bytes} (hH : A.hash = some H) (hb : ∀ k d, ∀ x ∈ H k d, x < 256)
    {toInt : Str → Option Nat} (hi : ReadsInt toInt)
    {K : Keys} {w : World} {log : List (Bytes × Str)} (h : History A K w log)
    (c c' : Cipher) (hc : c ∈ w.procs) (hc' : c' ∈ w.procs) (j j' : Nat) (hj : c.num = K.num j) (hj' : c'.num = K.num j')
    (h1 : j ≤ j') (h2 : j' + 1 ≤ j + 100) (now : Nat) (salt m : Bytes) (hs : ∀ x ∈ salt, x < 256) :
    ∃ s, (sign A c now salt m).2 = .val s ∧ (checkSig A toInt w.keys c' s (some m)).2 = .val m := by
  obtain ⟨hks, hprocs, _⟩ := history_ok hA h
  obtain ⟨q, hp⟩ := hprocs c hc
  have := proc_index hp hj
  subst this
  obtain ⟨q', hp'⟩ := hprocs c' hc'
  have := proc_index hp' hj'
  subst this
  obtain ⟨_, i, hiq, hcur⟩ := currentCipher_ok hp now
  refine ⟨decStr (K.num i) ++ 45 :: (salt.flatMap Sql.hexlify2 ++ 45 :: (H (K.key i) (salt ++ m)).flatMap Sql.hexlify2), ?_, ?_⟩
  · unfold sign
    rw [show currentCipher c now = ((currentCipher c now).1, some (K.num i, K.key i)) by rw [← hcur]]
    dsimp only
    rw [hH]
  · obtain ⟨c'', _, hg⟩ := getCipher_ok hA K hks hp' (i := i) (by omega) (by simp only [maxAge]; omega)
    unfold checkSig
    rw [splitSig_sign _ _ _ hs (hb _ _)]
    dsimp only
    rw [hi, unhexlify_hex _ hs, unhexlify_hex _ (hb _ _)]
    simp only [ne_eq, not_true_eq_false, if_false, hg, hH, if_true]

theorem escape_ne {m : Bytes} (h : m ≠ []) : Uri.escapeData m ≠ [] := by
  cases m with
  | nil => exact absurd rfl h
  | cons c m =>
    unfold Uri.escapeData
    rw [List.flatMap_cons]
    split <;> simp [Uri.percent]

/-- C107: a signature that carries its message is verified with the message, and without it gives the message back. -/
theorem C107_ascii_sign_partial {A : Alg} (hA : Good A) {H : Bytes → Bytes → Bytes} (hH : A.hash = some H) (hb : ∀ k d, ∀ x ∈ H k d, x < 256)
    {toInt : Str → Option Nat} (hi : ReadsInt toInt)
    {K : Keys} {w : World} {log : List (Bytes × Str)} (h : History A K w log)
    (c c' : Cipher) (hc : c ∈ w.procs) (hc' : c' ∈ w.procs) (j j' : Nat) (hj : c.num = K.num j) (hj' : c'.num = K.num j')
    (h1 : j ≤ j') (h2 : j' + 1 ≤ j + 100) (now : Nat) (salt m : Bytes) (hs : ∀ x ∈ salt, x < 256) (hm : ∀ x ∈ m, x < 256)
    (hne : m ≠ []) :
    ∃ s, (asciiSign A c now salt m).2 = .val s ∧ (checkSig A toInt w.keys c' s none).2 = .val m ∧
      (checkSig A toInt w.keys c' s (some m)).2 = .val m ∧
      ∀ m', m' ≠ [] → m' ≠ m → (checkSig A toInt w.keys c' s (some m')).2 = .valueError := by
  obtain ⟨hks, hprocs, _⟩ := history_ok hA h
  obtain ⟨q, hp⟩ := hprocs c hc
  have := proc_index hp hj
  subst this
  obtain ⟨q', hp'⟩ := hprocs c' hc'
  have := proc_index hp' hj'
  subst this
  obtain ⟨_, i, hiq, hcur⟩ := currentCipher_ok hp now
  refine ⟨decStr (K.num i) ++ 45 :: (salt.flatMap Sql.hexlify2 ++ 45 :: (H (K.key i) (salt ++ m)).flatMap Sql.hexlify2)
    ++ 45 :: Uri.escapeData m, ?_, ?_⟩
  · unfold asciiSign sign
    rw [show currentCipher c now = ((currentCipher c now).1, some (K.num i, K.key i)) by rw [← hcur]]
    dsimp only
    rw [hH]
  · obtain ⟨c'', _, hg⟩ := getCipher_ok hA K hks hp' (i := i) (by omega) (by simp only [maxAge]; omega)
    have hu : Uri.unescapeData (Uri.escapeData m) = some m :=
      Uri.C18_round_trip m hm Uri.isReserved Uri.isAllowed (by intro c hc; exact Uri.isAllowed_ascii c hc)
    unfold checkSig
    rw [splitSig_ascii _ _ _ _ hs (hb _ _)]
    dsimp only
    rw [hi, unhexlify_hex _ hs, unhexlify_hex _ (hb _ _)]
    simp only [ne_eq, escape_ne hne, not_false_eq_true, if_true, hu, hg, hH]
    refine ⟨trivial, ?_, ?_⟩
    · cases m with
      | nil => exact absurd rfl hne
      | cons b m => simp
    · intro m' h3 h4
      cases m' with
      | nil => exact absurd rfl h3
      | cons b m' => simp [h4]

/-- C107: a signature is accepted only if it consists of the number of a key that the process may know, a salt and the
hash of salt and message under that key; the message is the one that was asked for. -/
theorem C107_accept {A : Alg} (hA : Good A) {H : Bytes → Bytes → Bytes} (hH : A.hash = some H)
    (toInt : Str → Option Nat) {K : Keys} {w : World} {log : List (Bytes × Str)} (h : History A K w log)
    (c : Cipher) (hc : c ∈ w.procs) (j : Nat) (hj : c.num = K.num j) (sig : Str) (msg : Option Bytes) (m : Bytes)
    (ha : (checkSig A toInt w.keys c sig msg).2 = .val m) :
    ∃ num salt hash sm saltB i, splitSig 3 sig = [num, salt, hash, sm] ∧ i ≤ j ∧ toInt num = some (K.num i) ∧
      unhexlify salt = some saltB ∧ unhexlify hash = some (H (K.key i) (saltB ++ m)) ∧ (∀ m', msg = some m' → m' ≠ [] → m = m') := by
  obtain ⟨hks, hprocs, _⟩ := history_ok hA h
  obtain ⟨q, hp⟩ := hprocs c hc
  have := proc_index hp hj
  subst this
  unfold checkSig at ha
  split at ha
  case h_2 => cases ha
  rename_i num salt hash sm hsplit
  split at ha
  case h_2 => cases ha
  rename_i n saltB hashB e1 e2 e3
  dsimp only at ha
  split at ha
  · cases ha
  rename_i msg' hmsg
  split at ha
  · cases ha
  · cases ha
  · cases ha
  rename_i c' k hg
  rw [hH] at ha
  split at ha
  · cases ha
  · cases ha
  rename_i h' m' e4
  cases e4
  split at ha
  case isFalse => cases ha
  rename_i hh
  cases ha
  obtain ⟨i, hi, h1, h2⟩ := getCipher_sound hA K hks hp n k (by rw [hg])
  refine ⟨num, salt, hash, sm, saltB, i, hsplit, hi, by rw [e1, h1], e2, by rw [e3, ← hh, h2], ?_⟩
  intro m' hm' hne
  subst hm'
  split at hmsg
  · split at hmsg
    · cases hmsg
    · split at hmsg
      · split at hmsg
        · cases hmsg
        · rename_i e _; cases e; cases hmsg; rfl
      · rename_i hno
        cases m' with
        | nil => exact absurd rfl hne
        | cons b m' => exact absurd rfl (hno b m')
  · cases hmsg; rfl

/-- C107: a signature with a salt of four bytes that carries a hash made by `sign` for a message is accepted for no
other message, unless there is a collision of the hash function. -/
theorem C107_no_other_message {A : Alg} (hA : Good A) {H : Bytes → Bytes → Bytes} (hH : A.hash = some H)
    (toInt : Str → Option Nat) {K : Keys} {w : World} {log : List (Bytes × Str)} (h : History A K w log)
    (c : Cipher) (hc : c ∈ w.procs) (j : Nat) (hj : c.num = K.num j) (sig : Str) (msg : Option Bytes) (m : Bytes)
    (num salt hash sm : Str) (hsig : splitSig 3 sig = [num, salt, hash, sm]) (i : Nat) (hnum : toInt num = some (K.num i))
    (salt0 m0 : Bytes) (hlen : salt.length = 8) (h0 : salt0.length = 4)
    (hhash : unhexlify hash = some (H (K.key i) (salt0 ++ m0)))
    (ha : (checkSig A toInt w.keys c sig msg).2 = .val m) :
    m = m0 ∨ ∃ x y, x ≠ y ∧ H (K.key i) x = H (K.key i) y := by
  obtain ⟨num', salt', hash', sm', saltB, i', e1, _, e2, e3, e4, _⟩ := C107_accept hA hH toInt h c hc j hj sig msg m ha
  rw [hsig] at e1
  cases e1
  have hii : i' = i := by
    rw [hnum] at e2
    exact (K.inj _ _ (Option.some.inj e2)).symm
  subst hii
  rw [hhash] at e4
  have e4 := Option.some.inj e4
  by_cases hm : saltB ++ m = salt0 ++ m0
  · left
    have hl : saltB.length = 4 := by
      unfold unhexlify at e3
      split at e3
      case isFalse => cases e3
      have e3 := Option.some.inj e3
      rw [← e3]
      have key : ∀ s : Str, (OData.hexBytes s).length = s.length / 2 := by
        intro s
        fun_induction OData.hexBytes s with
        | case1 a b r ih => simp only [List.length_cons, ih]; omega
        | case2 s hs =>
          match s with
          | [] => rfl
          | [_] => simp
          | a :: b :: r => exact absurd rfl (hs a b r)
      rw [key, hlen]
    exact (List.append_inj hm (by rw [hl, h0])).2
  · right
    exact ⟨_, _, fun e => hm e.symm, e4⟩

/-! ### What goes wrong -/

/-- The length of the salt is not checked: the signature of "abc" gives one of "bc". -/
theorem C107_violation_boundary :
    (sign (plain id) (newCipher 0 [0]) 0 [1, 2, 3, 4] [97, 98, 99]).2 =
      .val (decStr 0 ++ 45 :: ([1, 2, 3, 4].flatMap Sql.hexlify2 ++ 45 :: [1, 2, 3, 4, 97, 98, 99, 0].flatMap Sql.hexlify2)) ∧
    (checkSig (plain id) (fun s => some (decVal s)) [] (newCipher 0 [0])
      (decStr 0 ++ 45 :: ([1, 2, 3, 4, 97].flatMap Sql.hexlify2 ++ 45 :: [1, 2, 3, 4, 97, 98, 99, 0].flatMap Sql.hexlify2))
      (some [98, 99])).2 = .val [98, 99] := by
  decide +kernel

/-- The signature of the empty message cannot be verified without it. -/
theorem C107_violation_empty :
    ∃ s, (asciiSign (plain id) (newCipher 0 [0]) 0 [1, 2, 3, 4] []).2 = .val s ∧
      (checkSig (plain id) (fun s => some (decVal s)) [] (newCipher 0 [0]) s none).2 = .valueError :=
  ⟨_, rfl, by decide +kernel⟩

/-- An empty message is not compared: a signature of "a" is accepted as one of "". -/
theorem C107_violation_empty_asked :
    ∃ s, (asciiSign (plain id) (newCipher 0 [0]) 0 [1, 2, 3, 4] [97]).2 = .val s ∧
      (checkSig (plain id) (fun s => some (decVal s)) [] (newCipher 0 [0]) s (some [])).2 = .val [97] :=
  ⟨_, rfl, by decide +kernel⟩

/-- A signature with an unknown key number raises RuntimeError, not ValueError. -/
theorem C107_violation_unknown_key :
    (checkSig (plain id) (fun s => some (decVal s)) [] (newCipher 0 [0]) [57, 45, 45] (some [97])).2 = .runtimeError := by
  decide +kernel

/-- An application with AES cannot sign. -/
theorem C107_violation_aes (sha : Bytes → Bytes) (E D : Bytes → Bytes → Bytes → Bytes) (salt m : Bytes) :
    (sign (aes sha E D) (newCipher 0 [0]) 0 salt m).2 = .attributeError := rfl

/-- When a key is empty, the one after it is taken in its place (here the signature of the process before the
change is refused). -/
theorem C107_violation_empty_key :
    let w := changeKey (plain id) [] (newCipher 0 []) 1 [1] 5 []
    ∃ s, (sign (plain id) (newCipher 0 []) 0 [1, 2, 3, 4] [97]).2 = .val s ∧
      (checkSig (plain id) (fun s => some (decVal s)) w.1 (newCipher 1 [1]) s (some [97])).2 = .valueError :=
  ⟨_, rfl, by decide +kernel⟩

/-- The filter of the constructor with `when`, wsgi.py:1575-1576, is not an expression: a process cannot be started
with a key that takes effect later, as the documentation of `change_key` asks for. -/
theorem C107_violation_when (v : OData.Val) :
    OData.exprFromStr OData.asciiIds (some [([116], v)])
      [69, 120, 112, 105, 114, 101, 115, 32, 103, 116, 101, 32, 58, 116] = none := by
  rfl

/-- With `ge` it would be one. -/
example : (OData.exprFromStr OData.asciiIds (some [([116], .i64 0)])
      [69, 120, 112, 105, 114, 101, 115, 32, 103, 101, 32, 58, 116]).isSome = true := by
  decide +kernel

end Verif.Web
