/-!
# Decimal notation (specification shared by several areas)

Characters are code points / byte values (`Nat`); '0' is 48.
-/
namespace Verif.Text

/-- An ASCII decimal digit. -/
def isDigit (c : Nat) : Bool := 48 ≤ c && c ≤ 57

/-- The number written by a string of digits, most significant first (Python `int(s)` for
ASCII digit strings). -/
def decVal (ds : List Nat) : Nat := ds.foldl (fun acc d => 10 * acc + (d - 48)) 0

/-- The decimal digits of a number without leading zeros (Python `str(n)`, `"%i" % n` for n ≥ 0). -/
def decStr (n : Nat) : List Nat :=
  if n < 10 then [48 + n] else decStr (n / 10) ++ [48 + n % 10]
termination_by n
decreasing_by omega

/-- Digits padded on the left with zeros to a width (Python `"%0*i" % (w, n)` for n ≥ 0). -/
def decPad (w n : Nat) : List Nat := List.replicate (w - (decStr n).length) 48 ++ decStr n

theorem decVal_append (a b : List Nat) : decVal (a ++ b) = b.foldl (fun acc d => 10 * acc + (d - 48)) (decVal a) := by
  simp [decVal, List.foldl_append]

theorem decVal_snoc (a : List Nat) (d : Nat) : decVal (a ++ [d]) = 10 * decVal a + (d - 48) := by
  simp [decVal, List.foldl_append]

theorem decVal_decStr (n : Nat) : decVal (decStr n) = n := by
  induction n using Nat.strongRecOn with
  | _ n ih =>
    rw [decStr]
    split
    · simp [decVal]
    · rw [decVal_snoc, ih (n / 10) (by omega)]; omega

theorem decStr_isDigit (n : Nat) : ∀ c ∈ decStr n, isDigit c = true := by
  induction n using Nat.strongRecOn with
  | _ n ih =>
    intro c hc
    rw [decStr] at hc
    split at hc
    · simp at hc; subst hc; simp [isDigit]; omega
    · rw [List.mem_append] at hc
      rcases hc with hc | hc
      · exact ih (n / 10) (by omega) c hc
      · simp at hc; subst hc; simp [isDigit]; omega

theorem decStr_ne_nil (n : Nat) : decStr n ≠ [] := by
  rw [decStr]; split <;> simp

theorem decStr_length_pos (n : Nat) : 0 < (decStr n).length :=
  List.length_pos_iff.2 (decStr_ne_nil n)

theorem decVal_zeros (k : Nat) (ds : List Nat) : decVal (List.replicate k 48 ++ ds) = decVal ds := by
  induction k with
  | zero => simp
  | succ k ih =>
    rw [List.replicate_succ, List.cons_append]
    simpa [decVal] using ih

theorem decVal_decPad (w n : Nat) : decVal (decPad w n) = n := by
  rw [decPad, decVal_zeros, decVal_decStr]

theorem decPad_isDigit (w n : Nat) : ∀ c ∈ decPad w n, isDigit c = true := by
  intro c hc
  rw [decPad, List.mem_append] at hc
  rcases hc with hc | hc
  · rw [List.mem_replicate] at hc; rw [hc.2]; rfl
  · exact decStr_isDigit n c hc

theorem decStr_length_le {n w : Nat} (h : n < 10 ^ w) (hw : 0 < w) : (decStr n).length ≤ w := by
  induction w generalizing n with
  | zero => omega
  | succ w ih =>
    rw [decStr]
    split
    · simp
    · rename_i hn
      have hw : 0 < w := by
        rcases w with _ | w
        · simp at h; omega
        · omega
      rw [Nat.pow_succ] at h
      have := ih (n := n / 10) (by omega) hw
      simp; omega

theorem decPad_length {n w : Nat} (h : n < 10 ^ w) (hw : 0 < w) : (decPad w n).length = w := by
  have := decStr_length_le h hw
  simp [decPad]; omega

theorem foldl_lt (ds : List Nat) (h : ∀ c ∈ ds, isDigit c = true) : ∀ acc,
    ds.foldl (fun acc d => 10 * acc + (d - 48)) acc < (acc + 1) * 10 ^ ds.length := by
  induction ds with
  | nil => intro acc; simp
  | cons d ds ih =>
    intro acc
    have hd := h d (by simp)
    simp [isDigit] at hd
    have := ih (fun c hc => h c (by simp [hc])) (10 * acc + (d - 48))
    refine Nat.lt_of_lt_of_le this ?_
    rw [List.length_cons, Nat.pow_succ, Nat.mul_comm (10 ^ ds.length) 10, ← Nat.mul_assoc]
    apply Nat.mul_le_mul_right
    omega

theorem decVal_lt {ds : List Nat} (h : ∀ c ∈ ds, isDigit c = true) : decVal ds < 10 ^ ds.length := by
  have := foldl_lt ds h 0
  simpa [decVal] using this

end Verif.Text
