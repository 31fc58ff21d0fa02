/-!
# `while` loops of a parser

A `while` loop whose body either stops, fails (raises), produces something and goes on, or produces something and
breaks.  `run` gives it enough fuel; `run_eq` shows that the fuel does not matter when each iteration makes progress.
-/
namespace Verif.Text

/-- What one iteration of a loop does. -/
inductive Step (α σ : Type) where
  /-- leave the loop -/
  | stop : Step α σ
  /-- raise an exception -/
  | fail : Step α σ
  /-- produce `a` and go on -/
  | emit (a : α) (s : σ) : Step α σ
  /-- produce `a` and leave the loop -/
  | last (a : α) (s : σ) : Step α σ

/-- The loop, for at most `n` iterations. -/
def loop {α σ : Type} (f : σ → Step α σ) : Nat → σ → Option (List α × σ)
  | 0, s => some ([], s)
  | n + 1, s => match f s with
    | .stop => some ([], s)
    | .fail => none
    | .last a r => some ([a], r)
    | .emit a r => (loop f n r).map fun p => (a :: p.1, p.2)

/-- The loop from `s`, where `μ s` bounds the number of iterations. -/
def run {α σ : Type} (f : σ → Step α σ) (μ : σ → Nat) (s : σ) : Option (List α × σ) := loop f (μ s + 1) s

theorem loop_fuel {α σ : Type} (f : σ → Step α σ) (μ : σ → Nat) (h : ∀ s a r, f s = .emit a r → μ r < μ s) :
    ∀ (n m : Nat) (s : σ), μ s < n → μ s < m → loop f n s = loop f m s := by
  intro n
  induction n with
  | zero => intro m s h1; omega
  | succ n ih =>
    intro m s h1 h2
    cases m with
    | zero => omega
    | succ m =>
      simp only [loop]
      cases hf : f s with
      | stop => rfl
      | fail => rfl
      | last a r => rfl
      | emit a r =>
        have hr := h s a r hf
        simp only
        rw [ih m r (by omega) (by omega)]

theorem run_eq {α σ : Type} {f : σ → Step α σ} {μ : σ → Nat} (h : ∀ s a r, f s = .emit a r → μ r < μ s) (s : σ) :
    run f μ s = match f s with
      | .stop => some ([], s)
      | .fail => none
      | .last a r => some ([a], r)
      | .emit a r => (run f μ r).map fun p => (a :: p.1, p.2) := by
  rw [run, loop]
  cases hf : f s with
  | stop => rfl
  | fail => rfl
  | last a r => rfl
  | emit a r =>
    simp only
    rw [run, loop_fuel f μ h _ (μ r + 1) r (h s a r hf) (by omega)]

end Verif.Text
