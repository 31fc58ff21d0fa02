import Verif.Http.ParamProps
/-! # What the HTTP parsers return and raise: C26 (from text to text), C45 -/
namespace Verif.Http
open Text (Step run run_eq)

/-- An invariant of a loop. -/
theorem run_inv {α σ : Type} {f : σ → Step α σ} {μ : σ → Nat} (hd : ∀ s a r, f s = .emit a r → μ r < μ s)
    (Inv : σ → Prop) (P : α → Prop) (he : ∀ s a r, Inv s → f s = .emit a r → P a ∧ Inv r)
    (hl : ∀ s a r, Inv s → f s = .last a r → P a ∧ Inv r) : ∀ (n : Nat) (s : σ), μ s ≤ n → Inv s → ∀ ts r,
    run f μ s = some (ts, r) → (∀ a ∈ ts, P a) ∧ Inv r := by
  intro n
  induction n with
  | zero =>
    intro s hs hi ts r h
    rw [run_eq hd] at h
    cases hf : f s with
    | stop =>
      rw [hf] at h; simp only [Option.some.injEq, Prod.mk.injEq] at h
      obtain ⟨rfl, rfl⟩ := h
      exact ⟨by simp, hi⟩
    | fail => rw [hf] at h; cases h
    | last a r' =>
      rw [hf] at h; simp only [Option.some.injEq, Prod.mk.injEq] at h
      obtain ⟨rfl, rfl⟩ := h
      obtain ⟨h1, h2⟩ := hl s a r' hi hf
      exact ⟨by simpa using h1, h2⟩
    | emit a r' => have := hd s a r' hf; omega
  | succ n ih =>
    intro s hs hi ts r h
    rw [run_eq hd] at h
    cases hf : f s with
    | stop =>
      rw [hf] at h; simp only [Option.some.injEq, Prod.mk.injEq] at h
      obtain ⟨rfl, rfl⟩ := h
      exact ⟨by simp, hi⟩
    | fail => rw [hf] at h; cases h
    | last a r' =>
      rw [hf] at h; simp only [Option.some.injEq, Prod.mk.injEq] at h
      obtain ⟨rfl, rfl⟩ := h
      obtain ⟨h1, h2⟩ := hl s a r' hi hf
      exact ⟨by simpa using h1, h2⟩
    | emit a r' =>
      rw [hf] at h
      simp only at h
      have hd' := hd s a r' hf
      obtain ⟨h1, h2⟩ := he s a r' hi hf
      cases hr' : run f μ r' with
      | none => rw [hr'] at h; cases h
      | some p =>
        rw [hr'] at h
        simp only [Option.map_some, Option.some.injEq, Prod.mk.injEq] at h
        obtain ⟨rfl, rfl⟩ := h
        obtain ⟨i1, i2⟩ := ih r' (by omega) h2 p.1 p.2 hr'
        refine ⟨?_, i2⟩
        intro x hx
        rcases List.mem_cons.mp hx with rfl | hx
        · exact h1
        · exact i1 x hx

/-- All the elements are bytes. -/
def AllBytes (s : Bytes) : Prop := ∀ b ∈ s, b < 256

theorem AllBytes.append {a b : Bytes} : AllBytes (a ++ b) ↔ AllBytes a ∧ AllBytes b := by
  constructor
  · intro h; exact ⟨fun x hx => h x (by simp [hx]), fun x hx => h x (by simp [hx])⟩
  · rintro ⟨h1, h2⟩ x hx
    rcases List.mem_append.mp hx with hx | hx
    · exact h1 x hx
    · exact h2 x hx

theorem AllBytes.cons {b : Nat} {s : Bytes} : AllBytes (b :: s) ↔ b < 256 ∧ AllBytes s := by
  simp [AllBytes]

theorem AllBytes.flatten {l : List Bytes} (h : ∀ s ∈ l, AllBytes s) : AllBytes l.flatten := by
  intro b hb
  obtain ⟨s, hs, hb⟩ := List.mem_flatten.mp hb
  exact h s hs b hb

theorem parseLws_bytes {s l r : Bytes} (h : parseLws s = some (l, r)) (hs : AllBytes s) : AllBytes l ∧ AllBytes r := by
  obtain ⟨rfl, _⟩ := parseLws_append h
  exact AllBytes.append.mp hs

theorem parseOneText_bytes {u : Bool} {s t r : Bytes} (h : parseOneText u s = some (t, r)) (hs : AllBytes s) :
    AllBytes t ∧ AllBytes r := by
  unfold parseOneText at h
  split at h
  · next l r' hl =>
    have := parseLws_bytes hl hs
    simp only [Option.some.injEq, Prod.mk.injEq] at h
    obtain ⟨rfl, rfl⟩ := h
    refine ⟨?_, this.2⟩
    split
    · intro b hb; simp at hb; omega
    · exact this.1
  · split at h
    · cases h
    · split at h
      · simp only [Option.some.injEq, Prod.mk.injEq] at h
        obtain ⟨rfl, rfl⟩ := h
        rw [AllBytes.cons] at hs
        exact ⟨by simpa [AllBytes] using hs.1, hs.2⟩
      · cases h

theorem textStep_bytes (u : Bool) (ends : List Nat) (s a r : Bytes) (hs : AllBytes s) (h : textStep u ends s = .emit a r) :
    AllBytes a ∧ AllBytes r := by
  cases s with
  | nil => simp [textStep] at h
  | cons b s =>
    simp only [textStep] at h
    split at h
    · cases h
    · split at h
      · next ht => cases h; exact parseOneText_bytes ht hs
      · cases h

theorem textStep_nolast (u : Bool) (ends : List Nat) (s a r : Bytes) : textStep u ends s ≠ .last a r := by
  intro h
  cases s with
  | nil => simp [textStep] at h
  | cons b s =>
    simp only [textStep] at h
    split at h
    · cases h
    · split at h <;> cases h

theorem parseTextTo_bytes {u : Bool} {ends : List Nat} {s t r : Bytes} (h : parseTextTo u ends s = some (t, r))
    (hs : AllBytes s) : AllBytes t ∧ AllBytes r := by
  unfold parseTextTo at h
  split at h
  · next ts r' hr =>
    have := run_inv (textStep_dec u ends) AllBytes AllBytes (fun s a r hs h => textStep_bytes u ends s a r hs h)
      (fun s a r _ h => absurd h (textStep_nolast u ends s a r)) _ s (Nat.le_refl _) hs ts r' hr
    split at h
    · cases h
    · simp only [Option.some.injEq, Prod.mk.injEq] at h
      obtain ⟨rfl, rfl⟩ := h
      exact ⟨AllBytes.flatten this.1, this.2⟩
  · cases h

theorem parseQuotedPair_bytes {s q r : Bytes} (h : parseQuotedPair s = some (q, r)) (hs : AllBytes s) :
    AllBytes q ∧ AllBytes r := by
  unfold parseQuotedPair at h
  split at h
  · split at h
    · simp only [Option.some.injEq, Prod.mk.injEq] at h
      obtain ⟨rfl, rfl⟩ := h
      simp only [AllBytes.cons] at hs ⊢
      exact ⟨⟨by decide, hs.2.1, by simp [AllBytes]⟩, hs.2.2⟩
    · cases h
  · cases h

theorem parseQuotedString_bytes {u : Bool} {s q r : Bytes} (h : parseQuotedString u s = some (q, r)) (hs : AllBytes s) :
    AllBytes q ∧ AllBytes r ∧ q.head? = some 34 := by
  unfold parseQuotedString at h
  split at h
  · next ts r' hr =>
    have := run_inv (qstrStep_dec u) AllBytes AllBytes (fun s a r hs h => by
        cases s with
        | nil => simp [qstrStep] at h
        | cons b s =>
          simp only [qstrStep] at h
          split at h
          · cases h
          · split at h
            · split at h
              · next ht => cases h; exact parseQuotedPair_bytes ht hs
              · cases h
            · split at h
              · next ht => cases h; exact parseTextTo_bytes ht hs
              · cases h)
      (fun s a r hs h => by
        cases s with
        | nil => simp [qstrStep] at h
        | cons b s =>
          simp only [qstrStep] at h
          split at h
          · cases h
            exact ⟨by simp [AllBytes], (AllBytes.cons.mp hs).2⟩
          · split at h
            · split at h <;> cases h
            · split at h <;> cases h) _ s (Nat.le_refl _) hs ts r' hr
    simp only [Option.some.injEq, Prod.mk.injEq] at h
    obtain ⟨rfl, rfl⟩ := h
    exact ⟨AllBytes.cons.mpr ⟨by decide, AllBytes.flatten this.1⟩, this.2, rfl⟩
  · cases h

theorem parseComment_bytes {u : Bool} {s q r : Bytes} (h : parseComment u s = some (q, r)) (hs : AllBytes s) :
    AllBytes q ∧ AllBytes r ∧ q.head? = some 40 := by
  unfold parseComment at h
  split at h
  · next ts d r' hr =>
    have := run_inv (μ := fun p : Nat × Bytes => p.2.length) (commentStep_dec u) (fun p => AllBytes p.2) AllBytes
      (fun s a r hs h => by
        obtain ⟨d, s⟩ := s
        cases s with
        | nil => simp [commentStep] at h
        | cons b s =>
          simp only [commentStep] at h
          have hs' := AllBytes.cons.mp hs
          split at h
          · split at h
            · cases h
            · cases h; exact ⟨by simp [AllBytes], hs'.2⟩
          · split at h
            · cases h; exact ⟨by simp [AllBytes], hs'.2⟩
            · split at h
              · split at h
                · next ht => cases h; exact parseQuotedPair_bytes ht hs
                · cases h
              · split at h
                · next ht => cases h; exact parseTextTo_bytes ht hs
                · cases h)
      (fun s a r hs h => by
        obtain ⟨d, s⟩ := s
        cases s with
        | nil => simp [commentStep] at h
        | cons b s =>
          simp only [commentStep] at h
          have hs' := AllBytes.cons.mp hs
          split at h
          · split at h
            · cases h; exact ⟨by simp [AllBytes], hs'.2⟩
            · cases h
          · split at h
            · cases h
            · split at h
              · split at h <;> cases h
              · split at h <;> cases h) _ (1, s) (Nat.le_refl _) hs ts (d, r') hr
    split at h
    · cases h
    · simp only [Option.some.injEq, Prod.mk.injEq] at h
      obtain ⟨rfl, rfl⟩ := h
      exact ⟨AllBytes.cons.mpr ⟨by decide, AllBytes.flatten this.1⟩, this.2, rfl⟩
  · cases h

theorem parseToken_bytes {s t r : Bytes} (h : parseToken s = some (t, r)) (hs : AllBytes s) :
    AllBytes t ∧ AllBytes r ∧ t ≠ [] ∧ ∀ b ∈ t, TokByte b := by
  unfold parseToken at h
  dsimp only at h
  split at h
  · cases h
  · next h0 =>
    simp only [Option.some.injEq, Prod.mk.injEq] at h
    obtain ⟨rfl, rfl⟩ := h
    refine ⟨fun b hb => hs b ((List.takeWhile_prefix _).subset hb), fun b hb => hs b (List.mem_of_mem_drop hb), h0, ?_⟩
    intro b hb
    have := List.all_takeWhile (p := fun b => !(isCtl b || isSeparator b)) (l := s)
    rw [List.all_eq_true] at this
    exact (tokByte_iff b).mp (this b hb)

/-- A word of a word parser: a separator, a token, a quoted string or a comment. -/
def WordOk : Word → Prop
  | .sep c => isSeparator c = true
  | .text t => AllBytes t ∧ ((t ≠ [] ∧ ∀ b ∈ t, TokByte b) ∨ t.head? = some 34 ∨ t.head? = some 40)

theorem skipLws_bytes : ∀ (n : Nat) (s : Bytes), AllBytes s → AllBytes (skipLws n s) := by
  intro n
  induction n with
  | zero => intro s h; exact h
  | succ n ih =>
    intro s h
    simp only [skipLws]
    split
    · next hl => exact ih _ (parseLws_bytes hl h).2
    · exact h

theorem spWord_ok (c : Bool) (x : Word) (h : x ∈ (if c then [Word.sep 32] else [])) : WordOk x := by
  split at h
  · simp only [List.mem_singleton] at h; subst h; exact (by decide : isSeparator 32 = true)
  · cases h

theorem app_ok {c : Bool} {w : Word} (hw : WordOk w) : ∀ x ∈ (if c then [Word.sep 32] else []) ++ [w], WordOk x := by
  intro x hx
  rw [List.mem_append, List.mem_singleton] at hx
  rcases hx with hx | rfl
  · exact spWord_ok c x hx
  · exact hw

theorem words_ok (ig : Bool) (s : Bytes) (hs : AllBytes s) (ws : List Word) (h : words ig s = some ws) :
    ∀ w ∈ ws, WordOk w := by
  unfold words at h
  cases hr : run (wordStep ig) List.length s with
  | none => rw [hr] at h; cases h
  | some p =>
    rw [hr] at h
    simp only [Option.map_some, Option.some.injEq] at h
    have := run_inv (wordStep_dec ig) AllBytes (fun l => ∀ w ∈ l, WordOk w)
      (fun s a r hs h => by
        cases s with
        | nil => simp [wordStep] at h
        | cons b s =>
          have hk := skipLws_bytes (b :: s).length (b :: s) hs
          simp only [wordStep] at h
          generalize skipLws (b :: s).length (b :: s) = k at hk h
          cases k with
          | nil => cases h
          | cons c t =>
            simp only at h
            have hk' := AllBytes.cons.mp hk
            split at h
            · next hsep =>
              split at h
              · split at h
                · next hq =>
                  cases h
                  obtain ⟨h1, h2, h3⟩ := parseComment_bytes hq hk'.2
                  exact ⟨app_ok ⟨h1, .inr (.inr h3)⟩, h2⟩
                · cases h
              · split at h
                · split at h
                  · next hq =>
                    cases h
                    obtain ⟨h1, h2, h3⟩ := parseQuotedString_bytes hq hk'.2
                    exact ⟨app_ok ⟨h1, .inr (.inl h3)⟩, h2⟩
                  · cases h
                · cases h; exact ⟨app_ok hsep, hk'.2⟩
            · split at h
              · next hq =>
                cases h
                obtain ⟨h1, h2, h3, h4⟩ := parseToken_bytes hq hk
                exact ⟨app_ok ⟨h1, .inl ⟨h3, h4⟩⟩, h2⟩
              · cases h)
      (fun s a r hs h => by
        cases s with
        | nil => simp [wordStep] at h
        | cons b s =>
          have hk := skipLws_bytes (b :: s).length (b :: s) hs
          simp only [wordStep] at h
          generalize skipLws (b :: s).length (b :: s) = k at hk h
          cases k with
          | nil => cases h; exact ⟨fun x hx => spWord_ok _ x hx, hk⟩
          | cons c t =>
            exfalso
            simp only at h
            repeat' split at h
            all_goals cases h) _ s (Nat.le_refl _) hs p.1 p.2 hr
    rw [← h]
    intro w hw
    obtain ⟨l, hl, hw⟩ := List.mem_flatten.mp hw
    exact this.1 l hl w hw

end Verif.Http
