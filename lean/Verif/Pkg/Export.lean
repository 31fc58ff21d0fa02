import Verif.Pkg.Expand
import Mathlib.Tactic.ByContra

/-!
# C121: exporting a content package as an archive (pyslet/imscpv1p2.py:692-744)

There are no links in the file system in memory, so that the test for directories seen before (lines 718-721) never
finds one.
-/
namespace Verif.Pkg
open Verif.Vfs

/-! ### Model -/

/-- The flag bits that the module `zipfile` sets for a name: bit 11 when the name is not ASCII. -/
def zflags (n : Str) : Nat := if n.all (· < 128) then 0 else 0x800

/-- The contents of a file. -/
def fileData (m : MemFS) (p : Str) : List Nat :=
  match dget m.items (m.real p) with
  | some (.file d _) => d
  | _ => []

/-- `add_to_zip`, imscpv1p2.py:716-744, to a depth.  `ign` is `ignore_file`. -/
def addTo (m : MemFS) (ign : Str → Bool) : Nat → Str → Str → List Entry
  | 0, _, _ => []
  | n + 1, p, zbase =>
    let z := zbase ++ (split p).2.map (fun c => if c = 47 then 58 else c)
    if m.isDir p then
      ⟨z ++ [47], zflags (z ++ [47]), []⟩ ::
        (((m.listdir p).getD []).filter (fun f => !ign f)).flatMap (fun f => addTo m ign n (join p [f]) (z ++ [47]))
    else if m.isFile p then [⟨z, zflags z, fileData m p⟩]
    else []

/-- A depth that is enough: no path is longer. -/
def depth (m : MemFS) : Nat := (m.items.map (fun e => e.1.length)).foldr max 0 + 1

/-- `export_to_pif`, imscpv1p2.py:692-714. -/
def exportZip (m : MemFS) (ign : Str → Bool) (root : Str) : List Entry :=
  (((m.listdir root).getD []).filter (fun f => !ign f)).flatMap (fun f => addTo m ign (depth m) (join root [f]) [])

/-! ### Expanding what was exported -/

/-- Nothing on the way is ignored. -/
def vis (ign : Str → Bool) (u : List Str) : Bool := u.all (fun c => !ign c)

theorem go_name' {t : List Str} {x : Str} (hx : IsName x) : go t x = x :: t := go_name t hx

/-- Going through directories that are there. -/
theorem segLoop_dirs (recode : Str → Option Str) {D : List Str} (hDn : Names D) (flags : Nat) {m : MemFS} (hm : m.Ok)
    (l : List Str) (hl : ∀ a ∈ l, IsName a) (hseg : ∀ a ∈ l, segText recode flags a = some a) (t : List Str) (ht : Names t) (hD : D <:+ t)
    (hdirs : ∀ k, k < l.length → m.at ((l.take k).reverse ++ t) = some .dir) (rest : List Str) :
    segLoop recode (absText D.reverse) flags m (absText t.reverse) (l ++ rest) =
      segLoop recode (absText D.reverse) flags m (absText (l.reverse ++ t).reverse) rest := by
  induction l generalizing t with
  | nil => rfl
  | cons a r ih =>
    have ha := hl a (.head _)
    have hdir := hdirs 0 (by simp)
    simp only [List.take_zero, List.reverse_nil, List.nil_append] at hdir
    have hn : Names (a :: t) := by
      intro c hc
      cases hc with
      | head => exact ha
      | tail _ hc => exact ht c hc
    have hstep : segStep recode (absText D.reverse) flags m (absText t.reverse) a = (m, .ok (absText (a :: t).reverse)) := by
      unfold segStep
      rw [if_pos ((isDir_place hm ht).2 hdir)]
      simp only [Bool.true_eq_false, if_false, hseg a (.head _)]
      rw [norm_join_place t ht a ha.2.2.2, go_name' ha, if_neg]
      rw [packagePath_isNone D (a :: t) hDn hn]
      exact fun h => h (List.suffix_cons_iff.2 (Or.inr hD))
    simp only [List.cons_append]
    rw [show segLoop recode (absText D.reverse) flags m (absText t.reverse) (a :: (r ++ rest)) =
      segLoop recode (absText D.reverse) flags m (absText (a :: t).reverse) (r ++ rest) by
        simp only [segLoop, hstep]]
    rw [ih (fun b hb => hl b (.tail _ hb)) (fun b hb => hseg b (.tail _ hb)) (a :: t) hn (List.suffix_cons_iff.2 (Or.inr hD))]
    · simp
    · intro k hk
      have := hdirs (k + 1) (by simpa using hk)
      simpa using this

theorem expandZip_append (recode : Str → Option Str) (root : Str) (a b : List Entry) (m m1 : MemFS)
    (h : expandZip recode root m a = (m1, none)) : expandZip recode root m (a ++ b) = expandZip recode root m1 b := by
  induction a generalizing m with
  | nil => simp only [expandZip, Prod.mk.injEq, and_true] at h; subst h; rfl
  | cons e r ih =>
    simp only [expandZip, List.cons_append] at h ⊢
    generalize expandEntry recode root m e = q at h ⊢
    obtain ⟨m2, o⟩ := q
    cases o with
    | some x => simp at h
    | none => exact ih m2 h

/-- The names of an archive are decoded as they were written. -/
def Plain7 (recode : Str → Option Str) : Prop := ∀ s : Str, (∀ c ∈ s, c < 128) → recode s = some s

theorem segText_zflags {recode : Str → Option Str} (hp : Plain7 recode) (n s : Str) (hs : ∀ c ∈ s, c ∈ n) :
    segText recode (zflags n) s = some s := by
  unfold segText zflags
  by_cases h : n.all (· < 128) = true
  · rw [if_pos h, if_pos (by decide)]
    apply hp
    intro c hc
    have := List.all_eq_true.1 h c (hs c hc)
    simpa using this
  · rw [if_neg h, if_neg (by decide)]

theorem mem_joinSep (l : List Str) : ∀ a ∈ l, ∀ c ∈ a, c ∈ joinSep l := by
  induction l with
  | nil => intro a ha; cases ha
  | cons x r ih =>
    intro a ha c hc
    cases r with
    | nil =>
      simp only [List.mem_cons, List.not_mem_nil, or_false] at ha
      subst ha; exact hc
    | cons y r =>
      simp only [joinSep, List.mem_append, List.mem_cons]
      cases ha with
      | head => exact Or.inl hc
      | tail _ ha => exact Or.inr (Or.inr (ih a ha c hc))

/-- The dictionaries of a directory: a file or directory written for an entry below `D`. -/
structure Ready (D w : List Str) (m : MemFS) : Prop where
  inv : Inv D m
  dirs : ∀ s, s <:+ w.tail → m.at (s ++ D) = some .dir
  none : ∀ q, Names q → (w ++ D) <:+ q → m.at q = none

theorem suffix_take_reverse (w : List Str) (k : Nat) (hk : k < w.length) : (w.reverse.take k).reverse <:+ w.tail := by
  cases w with
  | nil => simp at hk
  | cons x r =>
    simp only [List.length_cons] at hk
    rw [List.reverse_cons, List.take_append_of_le_length (by simp; omega)]
    simp only [List.tail_cons]
    have : (r.reverse.take k).reverse = r.drop (r.length - k) := by
      rw [List.reverse_take]; simp
    rw [this]
    exact List.drop_suffix _ _

theorem expand_file {recode : Str → Option Str} (hp : Plain7 recode) {D w : List Str} (hDn : Names D) (hw : Names w) (hw0 : w ≠ [])
    {m : MemFS} (hr : Ready D w m) (data : List Nat) :
    let e : Entry := ⟨joinSep w.reverse, zflags (joinSep w.reverse), data⟩
    ∃ m', expandEntry recode (absText D.reverse) m e = (m', none) ∧ Inv D m' ∧ m'.at (w ++ D) = some (.file data none) ∧
      ∀ u, Names u → u ≠ w ++ D → m'.at u = m.at u := by
  dsimp only
  have hrev : ∀ a ∈ w.reverse, IsName a := fun a ha => hw a (List.mem_reverse.1 ha)
  have hcomps : comps (joinSep w.reverse) = w.reverse :=
    comps_joinSep _ (by simpa using hw0) (fun a ha => (hrev a ha).2.2.2)
  have hn : Names (w ++ D) := by
    intro c hc
    rcases List.mem_append.1 hc with h | h
    · exact hw c h
    · exact hDn c h
  have hloop := segLoop_dirs recode hDn (zflags (joinSep w.reverse)) hr.inv.ok w.reverse hrev
    (fun a ha => segText_zflags hp _ a (mem_joinSep _ a ha)) D hDn (List.suffix_refl D)
    (by
      intro k hk
      rw [List.length_reverse] at hk
      exact hr.dirs _ (suffix_take_reverse w k hk)) []
  simp only [List.append_nil, List.reverse_reverse] at hloop
  have hnone : m.at (w ++ D) = none := hr.none _ hn (List.suffix_refl _)
  have hne : w ++ D ≠ D := by
    intro e; rw [e, hr.inv.root] at hnone; cases hnone
  unfold expandEntry
  dsimp only
  rw [hcomps, hloop]
  unfold segLoop
  dsimp only
  have h1 : ¬ m.isDir (absText (w ++ D).reverse) = true := by
    rw [isDir_place hr.inv.ok hn, hnone]; simp
  have h2 : ¬ m.pathExists (absText (w ++ D).reverse) = true := by
    rw [exists_place hr.inv.ok hn, hnone]; simp
  rw [if_neg h1, if_neg h2]
  obtain ⟨p1, p2, -, p4⟩ := putFile_spec hDn hr.inv hn hne hnone data
  have hnil : w ++ D ≠ [] := by simp [hw0]
  have p4 := p4 hnil
  obtain ⟨q1, q2⟩ := p2 p4
  refine ⟨(putFile m (absText (w ++ D).reverse) data).1, ?_, p1, q1, q2⟩
  rw [← p4]

theorem expand_dir {recode : Str → Option Str} (hp : Plain7 recode) {D w : List Str} (hDn : Names D) (hw : Names w) (hw0 : w ≠ [])
    {m : MemFS} (hr : Ready D w m) :
    let e : Entry := ⟨joinSep w.reverse ++ [47], zflags (joinSep w.reverse ++ [47]), []⟩
    ∃ m', expandEntry recode (absText D.reverse) m e = (m', none) ∧ Inv D m' ∧ m'.at (w ++ D) = some .dir ∧
      ∀ u, Names u → u ≠ w ++ D → m'.at u = m.at u := by
  dsimp only
  have hrev : ∀ a ∈ w.reverse, IsName a := fun a ha => hw a (List.mem_reverse.1 ha)
  have hcomps : comps (joinSep w.reverse ++ [47]) = w.reverse ++ [[]] := by
    rw [show joinSep w.reverse ++ [47] = joinSep w.reverse ++ 47 :: [] from rfl, comps_append_sep,
      comps_joinSep _ (by simpa using hw0) (fun a ha => (hrev a ha).2.2.2)]
    rfl
  have hn : Names (w ++ D) := by
    intro c hc
    rcases List.mem_append.1 hc with h | h
    · exact hw c h
    · exact hDn c h
  have hloop := segLoop_dirs recode hDn (zflags (joinSep w.reverse ++ [47])) hr.inv.ok w.reverse hrev
    (fun a ha => segText_zflags hp _ a (fun c hc => List.mem_append.2 (Or.inl (mem_joinSep _ a ha c hc)))) D hDn (List.suffix_refl D)
    (by
      intro k hk
      rw [List.length_reverse] at hk
      exact hr.dirs _ (suffix_take_reverse w k hk)) [[]]
  rw [List.reverse_reverse] at hloop
  have hnone : m.at (w ++ D) = none := hr.none _ hn (List.suffix_refl _)
  have hDw : D <:+ w ++ D := List.suffix_append _ _
  obtain ⟨e1, e2, e3, e4⟩ := ensure_dir hr.inv hn hDw
  have htail : (w ++ D).tail = w.tail ++ D := by
    cases w with
    | nil => exact absurd rfl hw0
    | cons x r => rfl
  have hok : (if m.isDir (absText (w ++ D).reverse) = true then (m, true) else m.mkdir (absText (w ++ D).reverse)).2 = true := by
    rw [e4]
    refine Or.inr ⟨hnone, Or.inr ?_⟩
    rw [htail, hr.dirs w.tail (List.suffix_refl _)]
    rfl
  have hstep : segStep recode (absText D.reverse) (zflags (joinSep w.reverse ++ [47])) m (absText (w ++ D).reverse) [] =
      ((if m.isDir (absText (w ++ D).reverse) = true then (m, true) else m.mkdir (absText (w ++ D).reverse)).1,
        .ok (absText (w ++ D).reverse)) := by
    unfold segStep
    dsimp only
    rw [hok, segText_zflags hp _ [] (by simp)]
    simp only [Bool.true_eq_false, if_false]
    rw [norm_join_place (w ++ D) hn [] (by simp), go_nil, if_neg]
    rw [packagePath_isNone D _ hDn hn]
    exact fun h => h hDw
  generalize (if m.isDir (absText (w ++ D).reverse) = true then (m, true) else m.mkdir (absText (w ++ D).reverse)) = r at e1 e2 e3 hok hstep
  unfold expandEntry
  dsimp only
  rw [hcomps, hloop]
  unfold segLoop
  rw [hstep]
  dsimp only
  unfold segLoop
  dsimp only
  have hdir := e3 hok
  rw [if_pos ((isDir_place e1.ok hn).2 hdir)]
  refine ⟨r.1, by simp, e1, hdir, ?_⟩
  intro u hu hne
  rcases e2 u hu with h | ⟨-, h, -⟩
  · exact h
  · exact absurd h hne

theorem join_place (t : List Str) (x : Str) (ht : Names t) (hx : IsName x) :
    join (absText t.reverse) [x] = absText (x :: t).reverse := by
  have hxa : isAbs x = false := isAbs_nosep hx.2.2.2
  unfold join
  rw [if_neg (by simp [absText])]
  simp only [joinLoop, if_neg hx.1, hxa, Bool.false_eq_true, if_false]
  rw [List.reverse_cons, absText_snoc]
  by_cases h0 : t = []
  · subst h0
    simp [absText, joinSep, endsSep]
  · have hne : t.reverse ≠ [] := by simpa using h0
    rw [if_neg hne]
    have hend : endsSep (absText t.reverse) = false := by
      cases t with
      | nil => exact absurd rfl h0
      | cons y r =>
        have hy := ht y (by simp)
        rw [List.reverse_cons, absText_snoc]
        have h47 : endsSep y = false := by
          rw [Bool.eq_false_iff]
          intro h
          obtain ⟨a, e⟩ := endsSep_split h
          exact hy.2.2.2 (by rw [e]; simp)
        split
        · rw [show (47 :: y) = [47] ++ y from rfl, endsSep_append _ _ hy.1]; exact h47
        · rw [endsSep_append _ _ (by simp)]
          rw [show (47 :: y) = [47] ++ y from rfl, endsSep_append _ _ hy.1]; exact h47
    rw [hend]
    simp

theorem tree_up {m : MemFS} (hT : m.Tree) (u t : List Str) (hn : Names (u ++ t)) (hu : u ≠ []) (h : (m.at (u ++ t)).isSome = true) :
    m.at t = some .dir := by
  induction u with
  | nil => exact absurd rfl hu
  | cons x r ih =>
    have hd := hT x (r ++ t) hn h
    by_cases hr : r = []
    · subst hr; exact hd
    · exact ih (names_tail hn) hr (by rw [hd]; rfl)

theorem names_append {u v : List Str} (hu : Names u) (hv : Names v) : Names (u ++ v) := by
  intro c hc
  rcases List.mem_append.1 hc with h | h
  · exact hu c h
  · exact hv c h

theorem dirlike_place {t : List Str} (ht : Names t) (h0 : t ≠ []) : isDirlike (absText t.reverse) = false := by
  rw [Bool.eq_false_iff]
  intro hd
  cases t with
  | nil => exact h0 rfl
  | cons x r =>
    have hx : IsName x := ht x (by simp)
    have hsp := split_stack r x hx
    rcases (C104_dirlike _).1 hd with ⟨a, e⟩ | ⟨a, e⟩
    · rw [e, split] at hsp
      rw [show a ++ [47] = a ++ 47 :: [] from rfl, rsplit_append 47 a [] (by simp)] at hsp
      exact hx.1 (congrArg Prod.snd hsp).symm
    · rw [e, split] at hsp
      rw [show a ++ [47, 46] = a ++ 47 :: [46] from rfl, rsplit_append 47 a [46] (by simp)] at hsp
      exact hx.2.1 (congrArg Prod.snd hsp).symm

theorem isFile_place {m : MemFS} (hm : m.Ok) {t : List Str} (ht : Names t) (h0 : t ≠ []) :
    m.isFile (absText t.reverse) = true ↔ ∃ d s, m.at t = some (.file d s) := by
  have := (C105_tests hm _ (absText_noDouble ht)).2.2
  rw [place_absText m t ht] at this
  rw [this, dirlike_place ht h0]
  simp

theorem suffix_same {a b q : List Str} (ha : a <:+ q) (hb : b <:+ q) (h : a.length = b.length) : a = b :=
  (List.suffix_of_suffix_length_le ha hb (Nat.le_of_eq h)).eq_of_length h

/-- The base of the names of what is inside a directory. -/
def zbase (v : List Str) : Str := if v = [] then [] else joinSep v.reverse ++ [47]

theorem joinSep_snoc (l : List Str) (x : Str) (h : l ≠ []) : joinSep (l ++ [x]) = joinSep l ++ 47 :: x := by
  induction l with
  | nil => exact absurd rfl h
  | cons a r ih =>
    cases r with
    | nil => simp [joinSep]
    | cons b r =>
      have := ih (by simp)
      simp only [List.cons_append] at this ⊢
      simp only [joinSep, this, List.cons_append, List.append_assoc]

theorem zbase_name (v : List Str) (x : Str) : zbase v ++ x = joinSep (x :: v).reverse := by
  unfold zbase
  by_cases h : v = []
  · subst h; simp [joinSep]
  · rw [if_neg h, List.reverse_cons, joinSep_snoc _ _ (by simpa using h)]
    simp

theorem map_colon {x : Str} (h : 47 ∉ x) : x.map (fun c => if c = 47 then 58 else c) = x := by
  induction x with
  | nil => rfl
  | cons a r ih =>
    simp only [List.mem_cons, not_or] at h
    rw [List.map_cons, ih h.2, if_neg (fun e => h.1 e.symm)]

section
variable {recode : Str → Option Str} (hp : Plain7 recode) {m : MemFS} (hm : m.Ok) (hT : m.Tree) (ign : Str → Bool)
  {S D : List Str} (hS : Names S) (hD : Names D) (hclosed : ∀ u d s, Names u → m.at (u ++ S) = some (.file d s) → s = none)

/-- What the entries for a file or a directory lead to. -/
def Copies (recode : Str → Option Str) (m : MemFS) (ign : Str → Bool) (S D : List Str) (n : Nat) : Prop :=
  ∀ x v m2, Names (x :: v) → (m.at (x :: v ++ S)).isSome = true → Ready D (x :: v) m2 →
    (∀ u, Names u → (m.at (u ++ (x :: v ++ S))).isSome = true → u.length < n) →
    ∃ m3, expandZip recode (absText D.reverse) m2 (addTo m ign n (absText (x :: v ++ S).reverse) (zbase v)) = (m3, none) ∧
      Inv D m3 ∧ (∀ q, Names q → ¬ (x :: v ++ D) <:+ q → m3.at q = m2.at q) ∧
      ∀ u, Names u → m3.at (u ++ (x :: v ++ D)) = if vis ign u then m.at (u ++ (x :: v ++ S)) else none

include hS hD in
theorem copy_kids {n : Nat} (hP : Copies recode m ign S D n) (v : List Str) (hv : Names v) (l : List Str) (hl : l.Nodup)
    (hin : ∀ f ∈ l, IsName f ∧ ign f = false ∧ (m.at (f :: v ++ S)).isSome = true) (m2 : MemFS) (hi : Inv D m2)
    (hdirs : ∀ s, s <:+ v → m2.at (s ++ D) = some .dir)
    (hnone : ∀ f ∈ l, ∀ q, Names q → (f :: v ++ D) <:+ q → m2.at q = none)
    (hdep : ∀ f ∈ l, ∀ u, Names u → (m.at (u ++ (f :: v ++ S))).isSome = true → u.length < n) :
    ∃ m3, expandZip recode (absText D.reverse) m2
        (l.flatMap fun f => addTo m ign n (join (absText (v ++ S).reverse) [f]) (zbase v)) = (m3, none) ∧
      Inv D m3 ∧ (∀ q, Names q → (∀ f ∈ l, ¬ (f :: v ++ D) <:+ q) → m3.at q = m2.at q) ∧
      ∀ f ∈ l, ∀ u, Names u → m3.at (u ++ (f :: v ++ D)) = if vis ign u then m.at (u ++ (f :: v ++ S)) else none := by
  induction l generalizing m2 with
  | nil => exact ⟨m2, rfl, hi, fun _ _ _ => rfl, fun f hf => nomatch hf⟩
  | cons f r ih =>
    obtain ⟨hfn, hfi, hfs⟩ := hin f (.head _)
    have hnfv : Names (f :: v) := by
      intro c hc
      cases hc with
      | head => exact hfn
      | tail _ hc => exact hv c hc
    obtain ⟨m3, e3, i3, o3, c3⟩ := hP f v m2 hnfv hfs ⟨hi, hdirs, hnone f (.head _)⟩ (hdep f (.head _))
    have hfr : f ∉ r := (List.nodup_cons.1 hl).1
    have hdiff : ∀ g ∈ r, ∀ q, (g :: v ++ D) <:+ q → ¬ (f :: v ++ D) <:+ q := by
      intro g hg q h1 h2
      have := suffix_same h1 h2 (by simp)
      simp only [List.cons_append, List.cons.injEq] at this
      exact hfr (this.1 ▸ hg)
    have hshort : ∀ s, s <:+ v → ¬ (f :: v ++ D) <:+ (s ++ D) := by
      intro s hs h
      have h1 := h.length_le
      have h2 := hs.length_le
      simp at h1
      omega
    obtain ⟨m4, e4, i4, o4, c4⟩ := ih (List.nodup_cons.1 hl).2 (fun g hg => hin g (.tail _ hg)) m3 i3
      (by
        intro s hs
        rw [o3 (s ++ D) (names_append (fun c hc => hv c (hs.subset hc)) hD) (hshort s hs)]
        exact hdirs s hs)
      (by
        intro g hg q hq h
        rw [o3 q hq (hdiff g hg q h)]
        exact hnone g (.tail _ hg) q hq h)
      (fun g hg => hdep g (.tail _ hg))
    refine ⟨m4, ?_, i4, ?_, ?_⟩
    · rw [List.flatMap_cons, join_place (v ++ S) f (names_append hv hS) hfn,
        expandZip_append recode _ _ _ m2 m3 (by simpa using e3)]
      exact e4
    · intro q hq h
      rw [o4 q hq (fun g hg => h g (.tail _ hg)), o3 q hq (h f (.head _))]
    · intro g hg u hu
      cases hg with
      | tail _ hg => exact c4 g hg u hu
      | head =>
        rw [o4 _ (names_append hu (names_append hnfv hD)), c3 u hu]
        intro g hg h
        exact hdiff g hg _ h (List.suffix_append _ _)

include hm in
theorem list_place {t : List Str} (ht : Names t) (h : m.at t = some .dir) :
    ∃ l, m.listdir (absText t.reverse) = some l ∧ l.Nodup ∧ ∀ x, x ∈ l ↔ IsName x ∧ (m.at (x :: t)).isSome = true := by
  obtain ⟨h1, h2⟩ := C105_listdir hm _ (absText_noDouble ht)
  rw [place_absText m t ht] at h1 h2
  obtain ⟨l, e⟩ := Option.isSome_iff_exists.1 (h1.2 h)
  exact ⟨l, e, h2 l e⟩

include hp hm hT hS hD hclosed in
theorem copies (n : Nat) : Copies recode m ign S D n := by
  induction n with
  | zero =>
    intro x v m2 hn hs hr hdep
    exact absurd (hdep [] (fun c hc => nomatch hc) hs) (by simp)
  | succ n ih =>
    intro x v m2 hn hs hr hdep
    have hx : IsName x := hn x (by simp)
    have hv : Names v := names_tail hn
    have hnS : Names (x :: v ++ S) := names_append hn hS
    have hnD : Names (x :: v ++ D) := names_append hn hD
    have hz : zbase v ++ (split (absText (x :: v ++ S).reverse)).2.map (fun c => if c = 47 then 58 else c) = joinSep (x :: v).reverse := by
      rw [List.cons_append, split_stack (v ++ S) x hx]
      dsimp only
      rw [map_colon hx.2.2.2, zbase_name]
    unfold addTo
    dsimp only
    rw [hz]
    by_cases hdir : m.at (x :: v ++ S) = some .dir
    · rw [if_pos ((isDir_place hm hnS).2 hdir)]
      obtain ⟨m3, e3, i3, d3, o3⟩ := expand_dir hp hD hn (by simp) hr
      obtain ⟨l, hl, hnd, hmem⟩ := list_place hm hnS hdir
      rw [hl]
      have hzb : joinSep (x :: v).reverse ++ [47] = zbase (x :: v) := by simp [zbase]
      have hself : ∀ f, ¬ (f :: (x :: v) ++ D) <:+ (x :: v ++ D) := by
        intro f h
        have := h.length_le
        simp only [List.length_append, List.length_cons] at this
        omega
      obtain ⟨m4, e4, i4, o4, c4⟩ := copy_kids (recode := recode) ign hS hD ih (x :: v) hn (l.filter (fun f => !ign f)) (hnd.filter _)
        (by
          intro f hf
          have := List.mem_filter.1 hf
          have h2 := (hmem f).1 this.1
          exact ⟨h2.1, by simpa using this.2, h2.2⟩) m3 i3
        (by
          intro s hs
          rcases List.suffix_cons_iff.1 hs with e | e
          · rw [e]; exact d3
          · rw [o3 _ (names_append (fun c hc => hv c (e.subset hc)) hD)]
            · exact hr.dirs s e
            · intro h
              have h1 := congrArg List.length h
              have h2 := e.length_le
              simp at h1
              omega)
        (by
          intro f hf q hq h
          rw [o3 q hq (by rintro rfl; exact hself f h)]
          exact hr.none q hq ((List.suffix_cons f _).trans h))
        (by
          intro f hf u hu h
          have := hdep (u ++ [f]) (names_append hu (by
            intro c hc
            rw [List.mem_singleton] at hc
            subst hc
            exact ((hmem c).1 (List.mem_filter.1 hf).1).1)) (by simpa using h)
          simpa using this)
      refine ⟨m4, ?_, i4, ?_, ?_⟩
      · rw [expandZip, e3]
        dsimp only
        rw [hzb, Option.getD_some]
        exact e4
      · intro q hq h
        rw [o4 q hq (fun f hf h2 => h ((List.suffix_cons f _).trans h2)), o3 q hq (by rintro rfl; exact h (List.suffix_refl _))]
      · intro u hu
        rcases List.eq_nil_or_concat u with rfl | ⟨w, f, rfl⟩
        · rw [List.nil_append, o4 _ hnD (fun f _ => hself f), d3]
          simpa [vis] using hdir.symm
        · rw [List.concat_eq_append] at hu ⊢
          have hf : IsName f := hu f (by simp)
          have hw : Names w := fun c hc => hu c (by simp [hc])
          have hq : Names (w ++ (f :: (x :: v) ++ D)) := names_append hw (by
            intro c hc
            cases hc with
            | head => exact hf
            | tail _ hc => exact hnD c hc)
          have hcat : ∀ t, w ++ [f] ++ (x :: v ++ t) = w ++ (f :: (x :: v) ++ t) := by intro t; simp
          rw [hcat, hcat]
          by_cases hfl : f ∈ l.filter (fun f => !ign f)
          · rw [c4 f hfl w hw]
            have hfi : ign f = false := by simpa using (List.mem_filter.1 hfl).2
            simp [vis, hfi]
          · rw [o4 _ hq (by
              intro g hg h
              have := suffix_same h (List.suffix_append w (f :: (x :: v) ++ D)) (by simp)
              simp only [List.cons_append, List.cons.injEq, and_true] at this
              exact hfl (this ▸ hg)), o3 _ hq (by
                intro h
                have := congrArg List.length h
                simp at this
                omega),
              hr.none _ hq ((List.suffix_cons f _).trans (List.suffix_append w _))]
            by_cases hfi : ign f = true
            · simp [vis, hfi]
            · have hnone : m.at (w ++ (f :: (x :: v) ++ S)) = none := by
                by_contra hc
                have hc' : (m.at (w ++ (f :: (x :: v) ++ S))).isSome = true := by
                  cases h : m.at (w ++ (f :: (x :: v) ++ S)) with
                  | none => exact absurd h hc
                  | some i => rfl
                have hfS : (m.at (f :: (x :: v) ++ S)).isSome = true := by
                  by_cases hw0 : w = []
                  · subst hw0; exact hc'
                  · rw [tree_up hT w _ (names_append hw (by
                      intro c hc
                      cases hc with
                      | head => exact hf
                      | tail _ hc => exact hnS c hc)) hw0 hc']; rfl
                exact hfl (List.mem_filter.2 ⟨(hmem f).2 ⟨hf, hfS⟩, by simpa using hfi⟩)
              rw [hnone]; simp
    · rw [if_neg (fun h => hdir ((isDir_place hm hnS).1 h))]
      obtain ⟨i, hi⟩ := Option.isSome_iff_exists.1 hs
      cases i with
      | dir => exact absurd hi hdir
      | file d s =>
        have hsn : s = none := hclosed (x :: v) d s hn hi
        subst hsn
        rw [if_pos ((isFile_place hm hnS (by simp)).2 ⟨d, none, hi⟩)]
        have hdata : fileData m (absText (x :: v ++ S).reverse) = d := by
          unfold fileData
          rw [real_absText hm _ hnS]
          have : dget m.items (absText (x :: v ++ S).reverse) = some (.file d none) := hi
          rw [this]
        rw [hdata]
        obtain ⟨m3, e3, i3, d3, o3⟩ := expand_file hp hD hn (by simp) hr d
        refine ⟨m3, ?_, i3, ?_, ?_⟩
        · rw [expandZip, e3]; rfl
        · intro q hq h
          exact o3 q hq (by rintro rfl; exact h (List.suffix_refl _))
        · intro u hu
          by_cases hu0 : u = []
          · subst hu0
            rw [List.nil_append, List.nil_append, d3, hi]; rfl
          · have hq := names_append hu hnD
            rw [o3 _ hq (by
              intro h
              have := congrArg List.length h
              simp only [List.length_append] at this
              exact hu0 (List.eq_nil_of_length_eq_zero (by omega))), hr.none _ hq (List.suffix_append _ _)]
            have hnone : m.at (u ++ (x :: v ++ S)) = none := by
              by_contra hc
              have hc' : (m.at (u ++ (x :: v ++ S))).isSome = true := by
                cases h : m.at (u ++ (x :: v ++ S)) with
                | none => exact absurd h hc
                | some i => rfl
              exact hdir (tree_up hT u _ (names_append hu hnS) hu0 hc')
            rw [hnone]; simp

theorem le_foldr_max {l : List Nat} {k : Nat} (h : k ∈ l) : k ≤ l.foldr max 0 := by
  induction l with
  | nil => cases h
  | cons a r ih =>
    simp only [List.foldr_cons]
    cases h with
    | head => omega
    | tail _ h => have := ih h; omega

theorem depth_enough (m : MemFS) (t : List Str) (ht : Names t) (h : (m.at t).isSome = true) : t.length < depth m := by
  have hlen := length_absText t.reverse (fun c hc => ht c (List.mem_reverse.1 hc))
  rw [List.length_reverse] at hlen
  unfold MemFS.at dget at h
  rw [Option.isSome_map, List.find?_isSome] at h
  obtain ⟨e, he, hk⟩ := h
  rw [beq_iff_eq] at hk
  have : (absText t.reverse).length ≤ (m.items.map (fun e => e.1.length)).foldr max 0 :=
    le_foldr_max (List.mem_map.2 ⟨e, he, by rw [hk]⟩)
  unfold depth
  omega

end

end Verif.Pkg
