import Verif.OData.LitProps
/-!
# What `parse_simple_identifier` accepts, stated without the parser
-/
namespace Verif.OUri

open Verif.OData

/-- Dotted names: each part starts with a starting character and goes on with continuing characters. -/
inductive Dotted (ids : Ids) : Str → Prop
  | one {c : Nat} {w : Str} : ids.start c = true → (∀ x ∈ w, ids.cont x = true) → Dotted ids (c :: w)
  | more {c : Nat} {w n : Str} : ids.start c = true → (∀ x ∈ w, ids.cont x = true) → Dotted ids n →
      Dotted ids (c :: w ++ 46 :: n)

theorem cont_dot (ids : Ids) : ids.cont 46 = false := by rw [ids.cont_ascii 46 (by decide)]; rfl

theorem identLoop_sound (ids : Ids) : ∀ (fuel : Nat) (s n r : Str), identLoop ids fuel s = some (n, r) →
    s = n ++ r ∧ Dotted ids n ∧ Break ids r := by
  intro fuel
  induction fuel with
  | zero => intro s n r h; simp [identLoop] at h
  | succ fuel ih =>
    intro s n r h
    cases s with
    | nil => simp [identLoop] at h
    | cons c t =>
      unfold identLoop at h
      by_cases hs : ids.start c = true
      · rw [if_pos hs] at h
        dsimp only at h
        have hd : t = t.takeWhile ids.cont ++ t.dropWhile ids.cont := List.takeWhile_append_dropWhile.symm
        have hall : ∀ y ∈ t.takeWhile ids.cont, ids.cont y = true := fun y hy => List.all_eq_true.1 List.all_takeWhile y hy
        cases hw : t.dropWhile ids.cont with
        | nil =>
          rw [hw] at h hd
          simp only [Option.some.injEq, Prod.mk.injEq] at h
          obtain ⟨rfl, rfl⟩ := h
          exact ⟨by simpa using hd, .one hs hall, fun c hc => by cases hc⟩
        | cons x r'' =>
          rw [hw] at h hd
          dsimp only at h
          have hx : ids.cont x = false := by
            have := List.head?_dropWhile_not ids.cont t
            rw [hw] at this
            simpa using this
          by_cases h46 : x = 46
          · rw [if_pos h46] at h
            cases hi : identLoop ids fuel r'' with
            | none => rw [hi] at h; cases h
            | some p =>
              obtain ⟨m, q'⟩ := p
              rw [hi] at h
              simp only [Option.map_some, Option.some.injEq, Prod.mk.injEq] at h
              obtain ⟨rfl, rfl⟩ := h
              obtain ⟨e, hm, hb⟩ := ih _ _ _ hi
              refine ⟨?_, .more hs hall hm, hb⟩
              rw [h46, e] at hd
              simp only [List.cons_append, List.append_assoc]
              rw [← hd]
          · rw [if_neg h46] at h
            simp only [Option.some.injEq, Prod.mk.injEq] at h
            obtain ⟨rfl, rfl⟩ := h
            exact ⟨by simpa using hd, .one hs hall, fun c hc => by cases hc; exact ⟨hx, h46⟩⟩
      · rw [if_neg hs] at h; cases h

theorem identLoop_complete (ids : Ids) {n : Str} (h : Dotted ids n) : ∀ (r : Str), Break ids r → ∀ fuel, n.length < fuel →
    identLoop ids fuel (n ++ r) = some (n, r) := by
  induction h with
  | @one c w hc hw =>
    intro r hr fuel hf
    obtain ⟨fuel, rfl⟩ : ∃ k, fuel = k + 1 := ⟨fuel - 1, by omega⟩
    have key := takeWhile_stop hw (fun c hc => (hr c hc).1)
    rw [List.cons_append]
    unfold identLoop
    rw [if_pos hc]
    dsimp only
    rw [key.1, key.2]
    cases r with
    | nil => rfl
    | cons x r => dsimp only; rw [if_neg (hr x rfl).2]
  | @more c w n hc hw _ ih =>
    intro r hr fuel hf
    obtain ⟨fuel, rfl⟩ : ∃ k, fuel = k + 1 := ⟨fuel - 1, by omega⟩
    simp only [List.length_append, List.length_cons] at hf
    have e : c :: w ++ 46 :: n ++ r = c :: (w ++ 46 :: (n ++ r)) := by simp
    have key := takeWhile_stop (r := 46 :: (n ++ r)) hw (fun c hc => by cases hc; exact cont_dot ids)
    rw [e]
    unfold identLoop
    rw [if_pos hc]
    dsimp only
    rw [key.1, key.2]
    dsimp only
    rw [if_pos rfl, ih r hr fuel (by omega)]
    rfl

/-- The identifier parser takes the longest dotted name; it fails (leaving the position alone) when there is none or
when a full stop is left over. -/
theorem parseIdent_iff (ids : Ids) (s n r : Str) :
    parseIdent ids s = some (n, r) ↔ s = n ++ r ∧ Dotted ids n ∧ Break ids r := by
  constructor
  · exact identLoop_sound ids _ _ _ _
  · rintro ⟨rfl, hn, hr⟩
    exact identLoop_complete ids hn r hr _ (by simp; omega)

theorem isName_iff (ids : Ids) (n : Str) : IsName ids n ↔ Dotted ids n := by
  unfold IsName
  rw [parseIdent_iff]
  constructor
  · exact fun h => h.2.1
  · exact fun h => ⟨by simp, h, fun c hc => by cases hc⟩

theorem Dotted.ne_nil {ids : Ids} {n : Str} (h : Dotted ids n) : n ≠ [] := by cases h <;> simp

/-- Dotted names contain none of the ASCII characters other than letters, digits, "_" and ".". -/
theorem Dotted.chars {ids : Ids} {n : Str} (h : Dotted ids n) : ∀ c ∈ n, ids.cont c = true ∨ c = 46 := by
  induction h with
  | one hc hw =>
    intro x hx
    rcases List.mem_cons.mp hx with rfl | hx
    · exact .inl (ids.start_cont _ hc)
    · exact .inl (hw x hx)
  | more hc hw _ ih =>
    intro x hx
    simp only [List.cons_append, List.mem_cons, List.mem_append] at hx
    rcases hx with rfl | hx | rfl | hx
    · exact .inl (ids.start_cont _ hc)
    · exact .inl (hw x hx)
    · exact .inr rfl
    · exact ih x hx

theorem Dotted.ascii {ids : Ids} {n : Str} (h : Dotted ids n) {c : Nat} (hc : c ∈ n) (hlt : c < 128) :
    Uri.isAlnum c = true ∨ c = 95 ∨ c = 46 := by
  rcases h.chars c hc with h | h
  · rw [ids.cont_ascii c hlt] at h; simp at h; rcases h with h | h
    · exact .inl h
    · exact .inr (.inl h)
  · exact .inr (.inr h)

end Verif.OUri
