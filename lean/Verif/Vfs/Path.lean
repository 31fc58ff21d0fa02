/-!
# C104: virtual file paths (pyslet/vfs.py:28-485)

Paths are lists of character codes; 47 is the separator and 46 the full stop.  Drives and UNC paths are not modelled:
`supports_drives` and `supports_unc` are False (vfs.py:72, 82) in `MemFilePath`.
-/
namespace Verif.Vfs

abbrev Str := List Nat

/-! ### Model -/

/-- `path.split(sep)`. -/
def comps : Str → List Str
  | [] => [[]]
  | c :: r =>
    if c = 47 then [] :: comps r
    else match comps r with
      | a :: l => (c :: a) :: l
      | [] => [[c]]

/-- `sep.join(components)`. -/
def joinSep : List Str → Str
  | [] => []
  | [a] => a
  | a :: b :: r => a ++ 47 :: joinSep (b :: r)

/-- `curdir`, vfs.py:98, 715. -/
def dot : Str := [46]
/-- `pardir`, vfs.py:101, 717. -/
def dotdot : Str := [46, 46]

/-- The loop of `normpath`, vfs.py:378-416.  `components[:i]` is `pre` reversed, `components[i:]` the second list. -/
def normLoop (pre suf : List Str) : List Str :=
  match suf with
  | [] => pre.reverse
  | c :: suf =>
    if c = [] then
      if pre = [[]] then pre.reverse ++ c :: suf
      else if pre ≠ [] then normLoop pre suf
      else normLoop [c] suf
    else if c = dotdot then
      match pre with
      | [] => normLoop [c] suf
      | par :: pre' =>
        if par = dotdot ∨ par = dot then normLoop (c :: par :: pre') suf
        else if par ≠ [] then normLoop pre' (dot :: suf)
        else normLoop (par :: pre') suf
    else if c = dot then
      if pre ≠ [] then normLoop pre suf else normLoop [c] suf
    else normLoop (c :: pre) suf
termination_by 2 * suf.length + pre.length
decreasing_by all_goals simp_wf <;> (try simp only [List.length_cons]) <;> omega

/-- vfs.py:417-422: what is done after the loop. -/
def normFix (cs : List Str) : List Str :=
  match cs with
  | [a] => if a = [] then [a, a] else [a]
  | a :: b :: r => if a = dot then b :: r else a :: b :: r
  | [] => []

/-- `normpath`, vfs.py:370-423. -/
def normpath (p : Str) : Str :=
  if p = [] then dot else joinSep (normFix (normLoop [] (comps p)))

/-- `p.startswith(sep)`: `isabs`, vfs.py:482-485. -/
def isAbs (p : Str) : Bool := p.head? == some 47

/-- `p.endswith(sep)`. -/
def endsSep (p : Str) : Bool := p.getLast? == some 47

/-- The loop of `join`, vfs.py:242-265; `acc` is the text of `new_path`. -/
def joinLoop : Str → Bool → List Str → Str
  | acc, _, [] => acc
  | acc, addSep, q :: qs =>
    if q = [] then joinLoop (if addSep then acc ++ [47] else acc) false qs
    else if isAbs q then joinLoop q (!endsSep q) qs
    else joinLoop ((if addSep then acc ++ [47] else acc) ++ q) (!endsSep q) qs

/-- `join`, vfs.py:222-268. -/
def join (p : Str) (qs : List Str) : Str :=
  if p = [] then joinLoop [] false qs else joinLoop p (!endsSep p) qs

/-- The constructor, vfs.py:182-197. -/
def mkPath : List Str → Str
  | [] => []
  | p :: qs => qs.foldl (fun path q => if isAbs q then q else if endsSep path then path ++ q else path ++ 47 :: q) p

/-- `path.rfind(c)`: the text before the last `c` and the text after it. -/
def rsplit (c : Nat) : Str → Option (Str × Str)
  | [] => none
  | x :: r =>
    match rsplit c r with
    | some (a, b) => some (x :: a, b)
    | none => if x = c then some ([], r) else none

/-- `split`, vfs.py:270-295. -/
def split (p : Str) : Str × Str :=
  match rsplit 47 p with
  | some (h, t) => (if h = [] then [47] else h, t)
  | none => ([], p)

/-- `is_dirlike`, vfs.py:462-468. -/
def isDirlike (p : Str) : Bool := endsSep p || p.drop (p.length - 2) == [47, 46]

/-- `splitext`, vfs.py:297-313. -/
def splitext (p : Str) : Str × Str :=
  if isDirlike p then (p, [])
  else
    match rsplit 46 p with
    | some (a, b) => (a, 46 :: b)
    | none => (p, [])

/-- `abspath`, vfs.py:355-357, and `realpath` (359-368): `normcase` changes nothing (425-429), and joining a path to
an absolute one gives it. -/
def abspath (cwd p : Str) : Str := normpath (join cwd [p])

/-- `realpath`, vfs.py:359-368. -/
def realpath (cwd p : Str) : Str := normpath (if isAbs p then p else join cwd [p])

/-- `is_root`, vfs.py:470-480. -/
def isRoot (p : Str) : Bool := isAbs p && (split p).1 == p

/-! ### Specification -/

/-- A directory is the list of the names on the way up to the root, the innermost first.  Going to a component. -/
def go (d : List Str) (c : Str) : List Str :=
  if c = [] ∨ c = [46] then d else if c = [46, 46] then d.tail else c :: d

/-- Where a path leads from a directory: `.` stays, `..` goes up (and stays at the root). -/
def resolve (d : List Str) (p : Str) : List Str := (comps p).foldl go (if isAbs p then [] else d)

/-- A name: not empty, not `.`, not `..`, no separator. -/
def IsName (c : Str) : Prop := c ≠ [] ∧ c ≠ [46] ∧ c ≠ [46, 46] ∧ 47 ∉ c

/-- `/a/b/c` for names (`/` for none), the text of an absolute path in normal form. -/
def absText (names : List Str) : Str := 47 :: joinSep names

/-- `../../a/b` for a number of `..` and names (`.` when there is neither): a relative path in normal form. -/
def relText (up : Nat) (names : List Str) : Str :=
  if up = 0 ∧ names = [] then [46] else joinSep (List.replicate up [46, 46] ++ names)

/-! ### Components -/

theorem comps_ne (p : Str) : comps p ≠ [] := by
  cases p with
  | nil => simp [comps]
  | cons c r =>
    unfold comps
    split
    · simp
    · split <;> simp

theorem comps_nosep (p : Str) : ∀ c ∈ comps p, 47 ∉ c := by
  induction p with
  | nil => simp [comps]
  | cons x r ih =>
    unfold comps
    split
    · intro c hc
      rcases List.mem_cons.1 hc with rfl | h
      · simp
      · exact ih c h
    · rename_i hx
      split
      · rename_i a l he
        rw [he] at ih
        intro c hc
        rcases List.mem_cons.1 hc with rfl | h
        · intro h
          rcases List.mem_cons.1 h with h | h
          · exact hx h.symm
          · exact ih a (by simp) h
        · exact ih c (by simp [h])
      · intro c hc
        rw [List.mem_singleton] at hc; subst hc
        intro h
        rw [List.mem_singleton] at h
        exact hx h.symm

theorem comps_plain {a : Str} (h : 47 ∉ a) : comps a = [a] := by
  induction a with
  | nil => rfl
  | cons x r ih =>
    have h1 : ¬ x = 47 := fun e => h (by simp [e])
    have h2 : 47 ∉ r := fun e => h (by simp [e])
    rw [comps, if_neg h1, ih h2]

theorem comps_append_sep (a b : Str) : comps (a ++ 47 :: b) = comps a ++ comps b := by
  induction a with
  | nil => simp [comps]
  | cons x r ih =>
    rw [List.cons_append, comps]
    by_cases h : x = 47
    · rw [if_pos h, ih, comps, if_pos h]; rfl
    · rw [if_neg h, ih, comps, if_neg h]
      cases hc : comps r with
      | nil => exact absurd hc (comps_ne r)
      | cons a l => simp

theorem joinSep_comps (p : Str) : joinSep (comps p) = p := by
  induction p with
  | nil => rfl
  | cons x r ih =>
    rw [comps]
    split
    · rename_i h; subst h
      cases hc : comps r with
      | nil => exact absurd hc (comps_ne r)
      | cons a l => rw [hc] at ih; simp [joinSep, ih]
    · split
      · rename_i a l he
        rw [he] at ih
        cases l with
        | nil => simp [joinSep] at ih ⊢; exact ih
        | cons b l => simp only [joinSep, List.cons_append] at ih ⊢; rw [ih]
      · rename_i he; exact absurd he (comps_ne r)

theorem comps_joinSep : ∀ (l : List Str), l ≠ [] → (∀ c ∈ l, 47 ∉ c) → comps (joinSep l) = l
  | [], h, _ => absurd rfl h
  | [a], _, h => comps_plain (h a (by simp))
  | a :: b :: r, _, h => by
    rw [joinSep, comps_append_sep, comps_plain (h a (by simp)),
      comps_joinSep (b :: r) (by simp) (fun c hc => h c (by simp [hc]))]
    rfl

theorem isAbs_comps (p : Str) : isAbs p = true ↔ ∃ l, l ≠ [] ∧ comps p = [] :: l := by
  cases p with
  | nil => simp [isAbs, comps]
  | cons x r =>
    rw [comps]
    by_cases h : x = 47
    · subst h; simp [isAbs, comps_ne]
    · rw [if_neg h]
      constructor
      · intro e; simp [isAbs] at e; exact absurd e h
      · rintro ⟨l, _, e⟩
        split at e <;> simp at e

/-- Where components lead. -/
def walk (d : List Str) (cs : List Str) : List Str := cs.foldl go d

/-- Whether components begin an absolute path. -/
def absComps : List Str → Bool
  | a :: _ :: _ => a == []
  | _ => false

theorem isAbs_joinSep {l : List Str} (hn : l ≠ []) (hs : ∀ c ∈ l, 47 ∉ c) : isAbs (joinSep l) = absComps l := by
  have hc := comps_joinSep l hn hs
  rw [Bool.eq_iff_iff, isAbs_comps, hc]
  cases l with
  | nil => exact absurd rfl hn
  | cons a r =>
    cases r with
    | nil => simp [absComps]
    | cons b r =>
      simp only [absComps, beq_iff_eq]
      constructor
      · rintro ⟨l, _, e⟩; exact (List.cons.inj e).1
      · rintro rfl; exact ⟨b :: r, by simp, rfl⟩

theorem resolve_eq (d : List Str) (p : Str) : resolve d p = walk (if absComps (comps p) then [] else d) (comps p) := by
  unfold resolve walk
  congr 1
  have : isAbs p = absComps (comps p) := by
    have := isAbs_joinSep (comps_ne p) (comps_nosep p)
    rwa [joinSep_comps] at this
  rw [this]

theorem go_nil (d : List Str) : go d [] = d := by simp [go]
theorem go_dot (d : List Str) : go d dot = d := by simp [go, dot]
theorem go_dotdot (d : List Str) : go d dotdot = d.tail := by simp [go, dotdot]
theorem go_name (d : List Str) {c : Str} (h : IsName c) : go d c = c :: d := by
  obtain ⟨h1, h2, h3, _⟩ := h
  simp [go, h1, h2, h3]

theorem walk_append (d : List Str) (a b : List Str) : walk d (a ++ b) = walk (walk d a) b := List.foldl_append ..

end Verif.Vfs
