import Verif.Pkg.C121
import Mathlib.Data.Nat.Digits.Defs
import Mathlib.Data.List.Perm.Subperm

/-!
# C122, C123: the paths of the files of a package (pyslet/imscpv1p2.py:84-107, 600-638, 746-792)
-/
namespace Verif.Pkg
open Verif.Vfs

/-! ### Model -/

/-- `path_in_path`, imscpv1p2.py:84-107; the empty text for equal paths. -/
def pathInPath (child parent : Str) : Option Str :=
  (relLoop (normpath parent) ((normpath child).length + 1) (normpath child) []).map mkPath

/-- `file_scanner`, imscpv1p2.py:623-638, to a depth: the keys that are added, in order. -/
def scan (m : MemFS) (ign : Str → Bool) (root : Str) : Nat → Str → List Str
  | 0, _ => []
  | n + 1, rel =>
    if m.isDir (join root [rel]) then
      (((m.listdir (join root [rel])).getD []).filter (fun f => !ign f)).flatMap (fun f => scan m ign root n (join rel [f]))
    else if m.isFile (join root [rel]) then [rel]
    else []

/-- `imsmanifest.xml`. -/
def manifestName : Str := [105, 109, 115, 109, 97, 110, 105, 102, 101, 115, 116, 46, 120, 109, 108]

/-- The first part of `rebuild_file_table`, imscpv1p2.py:603-610. -/
def fileKeys (m : MemFS) (ign : Str → Bool) (root : Str) : List Str :=
  (((m.listdir root).getD []).filter (fun f => !ign f && f != manifestName)).flatMap (fun f => scan m ign root (depth m) f)

/-- A dictionary from paths to the `File` objects that refer to them. -/
abbrev Table := List (Str × List Nat)

/-- Adding a reference, imscpv1p2.py:618-621. -/
def addRef (t : Table) (k : Str) (f : Nat) : Table :=
  if (t.map (·.1)).contains k then t.map (fun e => if e.1 = k then (e.1, e.2 ++ [f]) else e) else t ++ [(k, [f])]

/-- The second part, imscpv1p2.py:613-621: each `File` with its `package_path`, if it is in the package. -/
def addRefs (t : Table) (refs : List (Option Str × Nat)) : Table :=
  refs.foldl (fun t r => match r.1 with | some k => addRef t k r.2 | none => t) t

/-- `rebuild_file_table`, imscpv1p2.py:600-621. -/
def rebuild (m : MemFS) (ign : Str → Bool) (root : Str) (refs : List (Option Str × Nat)) : Table :=
  addRefs ((fileKeys m ign root).map (fun k => (k, []))) refs

/-- The digits of `%X`. -/
def hexDigit (d : Nat) : Nat := if d < 10 then d + 48 else d + 55

/-- `'%X' % n`. -/
def hexX (n : Nat) : Str := if n = 0 then [48] else ((Nat.digits 16 n).map hexDigit).reverse

/-- `'%s_%X%s' % (fname, extra, ext)`, imscpv1p2.py:788-789. -/
def candidate (p : Str) (extra : Nat) : Str := (splitext p).1 ++ 95 :: hexX extra ++ (splitext p).2

/-- `s in self.fileTable` for a text: the keys are paths, whose hash is that of the class together with that of the text (vfs.py:622-623),
and a text is only compared with the keys that have its hash.  Hashes are taken as words of bits. -/
def strIn (hc : Nat) (h : Str → Nat) (keys : List Str) (s : Str) : Bool := keys.contains s && (hc ||| h s == h s)

/-- The loop, imscpv1p2.py:785-790, after the first test: the candidates from a random number on. -/
def uniqLoop (hc : Nat) (h : Str → Nat) (keys : List Str) (p : Str) : Nat → Nat → Option Str
  | 0, _ => none
  | k + 1, extra => if strIn hc h keys (candidate p extra) then uniqLoop hc h keys p k (extra + 1) else some (candidate p extra)

/-- What `get_unique_path` gives. -/
inductive Uniq
  | ok (p : Str)
  | pathError      -- CPFilePathError
  | attrError      -- AttributeError
  | forever
  deriving DecidableEq

/-- `get_unique_path`, imscpv1p2.py:746-792; `lower` is `str.lower`, `rand` the random number. -/
def getUnique (lower : Str → Str) (hc : Nat) (h : Str → Nat) (keys : List Str) (root : Str) (rand : Nat) (s : Str) : Uniq :=
  match pathInPath (if isAbs s then s else join root [lower s]) root with
  | none => .pathError
  | some p =>
    if p = [] then .attrError
    else if keys.contains p then
      match uniqLoop hc h keys p (keys.length + 1) rand with
      | some q => .ok q
      | none => .forever
    else .ok p

/-! ### Relative paths -/

theorem joinSep_append (a b : List Str) (ha : a ≠ []) (hb : b ≠ []) : joinSep (a ++ b) = joinSep a ++ 47 :: joinSep b := by
  induction a with
  | nil => exact absurd rfl ha
  | cons x r ih =>
    cases r with
    | nil =>
      cases b with
      | nil => exact absurd rfl hb
      | cons y b => rfl
    | cons y r =>
      have := ih (by simp)
      simp only [List.cons_append] at this ⊢
      simp only [joinSep, this, List.cons_append, List.append_assoc]

theorem endsSep_joinSep (l : List Str) (hl : ∀ c ∈ l, IsName c) : endsSep (joinSep l) = false := by
  rcases List.eq_nil_or_concat l with rfl | ⟨w, x, rfl⟩
  · rfl
  · rw [List.concat_eq_append] at hl ⊢
    have hx := hl x (by simp)
    have h47 : endsSep x = false := by
      rw [Bool.eq_false_iff]
      intro h
      obtain ⟨a, e⟩ := endsSep_split h
      exact hx.2.2.2 (by rw [e]; simp)
    by_cases hw : w = []
    · subst hw; exact h47
    · rw [Verif.Vfs.joinSep_snoc w x hw, endsSep_append _ _ (by simp), show (47 :: x) = [47] ++ x from rfl, endsSep_append _ _ hx.1]
      exact h47

theorem mkPath_names (l : List Str) (hl : ∀ c ∈ l, IsName c) : mkPath l = joinSep l := by
  cases l with
  | nil => rfl
  | cons p qs =>
    have key : ∀ (qs w : List Str), w ≠ [] → (∀ c ∈ w ++ qs, IsName c) →
        qs.foldl (fun path q => if isAbs q then q else if endsSep path then path ++ q else path ++ 47 :: q) (joinSep w) = joinSep (w ++ qs) := by
      intro qs
      induction qs with
      | nil => intro w _ _; simp
      | cons q qs ih =>
        intro w hw hn
        have hq := hn q (by simp)
        rw [List.foldl_cons, isAbs_nosep hq.2.2.2, endsSep_joinSep w (fun c hc => hn c (by simp [hc]))]
        simp only [Bool.false_eq_true, if_false]
        rw [← Verif.Vfs.joinSep_snoc w q hw, ih (w ++ [q]) (by simp) (by simpa using hn)]
        simp
    have := key qs [p] (by simp) (by simpa using hl)
    simpa [mkPath, joinSep] using this

/-- C122: for absolute paths without double separators, `path_in_path` gives `None` exactly when the child does not lead to a place
in the parent; otherwise it gives the names on the way from the parent to the child, without any navigation, and following them from
the parent leads to the child. -/
theorem C122_inside (c p : Str) (hc : isAbs c = true) (hp : isAbs p = true) (hcd : NoDouble c) (hpd : NoDouble p) :
    (pathInPath c p = none ↔ ¬ resolve [] p <:+ resolve [] c) ∧
    ∀ r, pathInPath c p = some r → ∃ names, (∀ a ∈ names, IsName a) ∧ r = joinSep names ∧
      resolve [] c = names.reverse ++ resolve [] p ∧ resolve (resolve [] p) r = resolve [] c := by
  have hC : Names (resolve [] c) := resolve_names (by intro a ha; cases ha) c
  have hP : Names (resolve [] p) := resolve_names (by intro a ha; cases ha) p
  unfold pathInPath
  rw [C104_norm_abs_partial c hc hcd, C104_norm_abs_partial p hp hpd, relLoop_packagePath _ _ hP hC]
  generalize resolve [] c = C at hC
  generalize resolve [] p = P at hP
  by_cases hs : P <:+ C
  · rw [if_pos hs]
    obtain ⟨u, rfl⟩ := hs
    refine ⟨by simp, ?_⟩
    intro r hr
    have hn : ∀ a ∈ u.reverse, IsName a := fun a ha => hC a (by simp [List.mem_reverse.1 ha])
    have htake : (u ++ P).take ((u ++ P).length - P.length) = u := by simp
    rw [htake, Option.map_some, mkPath_names _ hn] at hr
    injection hr with hr
    subst hr
    refine ⟨u.reverse, hn, rfl, by simp, ?_⟩
    by_cases hu : u = []
    · subst hu; simp [joinSep, resolve, comps, isAbs, go]
    · unfold resolve
      rw [comps_joinSep _ (by simpa using hu) (fun a ha => (hn a ha).2.2.2)]
      have ha : isAbs (joinSep u.reverse) = false := by
        cases hr : u.reverse with
        | nil => exact absurd (by simpa using hr) hu
        | cons x r =>
          have hx := hn x (by rw [hr]; simp)
          cases x with
          | nil => exact absurd rfl hx.1
          | cons a x =>
            have : a ≠ 47 := fun e => hx.2.2.2 (by simp [e])
            cases r <;> simp [joinSep, isAbs, this]
      rw [ha]
      simp only [Bool.false_eq_true, if_false]
      have hgo : ∀ (l : List Str) (t : List Str), (∀ a ∈ l, IsName a) → l.foldl go t = l.reverse ++ t := by
        intro l
        induction l with
        | nil => intro t _; rfl
        | cons x l ih =>
          intro t h
          rw [List.foldl_cons, go_name t (h x (.head _)), ih _ (fun a ha => h a (.tail _ ha))]
          simp
      rw [hgo _ _ hn, List.reverse_reverse]
  · rw [if_neg hs]
    exact ⟨by simp [hs], fun r hr => nomatch hr⟩

example : pathInPath [47, 112, 47, 97, 47, 46, 46, 47, 98] [47, 112] = some [98] := by decide +kernel
example : pathInPath [47, 112] [47, 112] = some [] := by decide +kernel
example : pathInPath [47, 112, 113] [47, 112] = none := by decide +kernel

/-! ### The table of files -/

theorem join_rel (S w : List Str) (hS : Names S) (hw : Names w) (hw0 : w ≠ []) :
    join (absText S.reverse) [joinSep w.reverse] = absText (w ++ S).reverse := by
  have hwr : ∀ c ∈ w.reverse, IsName c := fun c hc => hw c (List.mem_reverse.1 hc)
  have hne : w.reverse ≠ [] := by simpa using hw0
  have hj : joinSep w.reverse ≠ [] ∧ isAbs (joinSep w.reverse) = false := by
    cases hr : w.reverse with
    | nil => exact absurd hr hne
    | cons x r =>
      have hx := hwr x (by rw [hr]; simp)
      cases x with
      | nil => exact absurd rfl hx.1
      | cons a x =>
        have : a ≠ 47 := fun e => hx.2.2.2 (by simp [e])
        cases r <;> simp [joinSep, isAbs, this]
  unfold join
  rw [if_neg (by simp [absText])]
  simp only [joinLoop, if_neg hj.1, hj.2, Bool.false_eq_true, if_false]
  rw [List.reverse_append]
  by_cases h0 : S = []
  · subst h0
    simp [absText, joinSep, endsSep]
  · have hSr : S.reverse ≠ [] := by simpa using h0
    have hend : endsSep (absText S.reverse) = false := by
      unfold absText
      have h1 : joinSep S.reverse ≠ [] := by
        intro e
        have h2 := resolve_absText S.reverse (fun c hc => hS c (List.mem_reverse.1 hc)) []
        unfold absText at h2
        rw [e] at h2
        have h3 : resolve [] [47] = [] := by decide
        rw [h3] at h2
        exact hSr (by simpa using h2.symm)
      rw [show (47 :: joinSep S.reverse) = [47] ++ joinSep S.reverse from rfl, endsSep_append _ _ h1]
      exact endsSep_joinSep _ (fun c hc => hS c (List.mem_reverse.1 hc))
    rw [hend]
    unfold absText
    rw [joinSep_append _ _ hSr hne]
    simp

theorem join_rel_name (w : List Str) (x : Str) (hw : Names w) (hw0 : w ≠ []) (hx : IsName x) :
    join (joinSep w.reverse) [x] = joinSep (x :: w).reverse := by
  have hwr : ∀ c ∈ w.reverse, IsName c := fun c hc => hw c (List.mem_reverse.1 hc)
  have hne : w.reverse ≠ [] := by simpa using hw0
  have hj : joinSep w.reverse ≠ [] := by
    intro e
    cases hr : w.reverse with
    | nil => exact hne hr
    | cons y r =>
      have hy := hwr y (by rw [hr]; simp)
      rw [hr] at e
      cases r with
      | nil => exact hy.1 e
      | cons z r => simp [joinSep] at e
  unfold join
  rw [if_neg hj]
  simp only [joinLoop, if_neg hx.1, isAbs_nosep hx.2.2.2, Bool.false_eq_true, if_false, endsSep_joinSep _ hwr]
  rw [List.reverse_cons, Verif.Vfs.joinSep_snoc _ _ hne]
  simp

theorem names_single {x : Str} (hx : IsName x) : Names [x] := by
  intro c hc
  rw [List.mem_singleton] at hc
  subst hc
  exact hx

theorem names_cons {x : Str} {t : List Str} (hx : IsName x) (ht : Names t) : Names (x :: t) := by
  intro c hc
  cases hc with
  | head => exact hx
  | tail _ hc => exact ht c hc

/-- What is scanned from a place on. -/
theorem mem_scan {m : MemFS} (hm : m.Ok) (hT : m.Tree) (ign : Str → Bool) {S : List Str} (hS : Names S) (n : Nat) (v : List Str)
    (hv : Names v) (hv0 : v ≠ []) (hdep : ∀ u, Names u → (m.at (u ++ (v ++ S))).isSome = true → u.length < n) (k : Str) :
    k ∈ scan m ign (absText S.reverse) n (joinSep v.reverse) ↔
      ∃ u, Names u ∧ vis ign u = true ∧ (∃ d s, m.at (u ++ (v ++ S)) = some (.file d s)) ∧ k = joinSep (u ++ v).reverse := by
  induction n generalizing v with
  | zero =>
    simp only [scan, List.not_mem_nil, false_iff]
    rintro ⟨u, hu, -, ⟨d, s, h⟩, -⟩
    exact absurd (hdep u hu (by rw [h]; rfl)) (by omega)
  | succ n ih =>
    have hvS : Names (v ++ S) := names_append hv hS
    have hvS0 : v ++ S ≠ [] := by simp [hv0]
    unfold scan
    rw [join_rel S v hS hv hv0]
    by_cases hd : m.at (v ++ S) = some .dir
    · rw [if_pos ((isDir_place hm hvS).2 hd)]
      obtain ⟨l, hl, -, hmem⟩ := list_place hm hvS hd
      rw [hl, Option.getD_some, List.mem_flatMap]
      constructor
      · rintro ⟨f, hf, hk⟩
        obtain ⟨hf1, hf2⟩ := List.mem_filter.1 hf
        have hfn := ((hmem f).1 hf1).1
        rw [join_rel_name v f hv hv0 hfn, ih (f :: v) (names_cons hfn hv) (by simp) (by
          intro u hu h
          have := hdep (u ++ [f]) (names_append hu (names_single hfn)) (by simpa using h)
          simpa using this)] at hk
        obtain ⟨u, hu, hvis, hfile, e⟩ := hk
        refine ⟨u ++ [f], names_append hu (names_single hfn), ?_, by simpa using hfile, by simpa using e⟩
        simp only [vis, List.all_append, Bool.and_eq_true] at hvis ⊢
        exact ⟨hvis, by simpa using hf2⟩
      · rintro ⟨u, hu, hvis, ⟨d, s, hfile⟩, e⟩
        rcases List.eq_nil_or_concat u with rfl | ⟨w, f, rfl⟩
        · rw [List.nil_append, hd] at hfile; cases hfile
        · rw [List.concat_eq_append] at hu hvis hfile e
          have hf : IsName f := hu f (by simp)
          have hw : Names w := fun c hc => hu c (by simp [hc])
          simp only [vis, List.all_append, Bool.and_eq_true] at hvis
          have hcat : w ++ [f] ++ (v ++ S) = w ++ (f :: v ++ S) := by simp
          rw [hcat] at hfile
          have hsome : (m.at (f :: (v ++ S))).isSome = true := by
            by_cases hw0 : w = []
            · subst hw0
              have : m.at (f :: (v ++ S)) = some (.file d s) := hfile
              rw [this]; rfl
            · have := tree_up hT w (f :: v ++ S) (names_append hw (names_cons hf hvS)) hw0 (by rw [hfile]; rfl)
              have h2 : m.at (f :: (v ++ S)) = some .dir := this
              rw [h2]; rfl
          refine ⟨f, List.mem_filter.2 ⟨(hmem f).2 ⟨hf, hsome⟩, by simpa using hvis.2⟩, ?_⟩
          rw [join_rel_name v f hv hv0 hf, ih (f :: v) (names_cons hf hv) (by simp) (by
            intro u hu h
            have := hdep (u ++ [f]) (names_append hu (names_single hf)) (by simpa using h)
            simpa using this)]
          exact ⟨w, hw, hvis.1, ⟨d, s, hfile⟩, by simpa using e⟩
    · rw [if_neg (fun h => hd ((isDir_place hm hvS).1 h))]
      have honly : ∀ u, Names u → (m.at (u ++ (v ++ S))).isSome = true → u = [] := by
        intro u hu h
        by_contra hne
        exact hd (tree_up hT u _ (names_append hu hvS) hne h)
      by_cases hf : m.isFile (absText (v ++ S).reverse) = true
      · rw [if_pos hf, List.mem_singleton]
        have hfile := (isFile_place hm hvS hvS0).1 hf
        constructor
        · intro e
          exact ⟨[], (fun c hc => nomatch hc), rfl, hfile, e⟩
        · rintro ⟨u, hu, -, ⟨d, s, h⟩, e⟩
          have := honly u hu (by rw [h]; rfl)
          subst this
          exact e
      · rw [if_neg hf]
        simp only [List.not_mem_nil, false_iff]
        rintro ⟨u, hu, -, ⟨d, s, h⟩, e⟩
        have := honly u hu (by rw [h]; rfl)
        subst this
        exact hf ((isFile_place hm hvS hvS0).2 ⟨d, s, h⟩)

/-- C123: the table of files has a key for each regular file of the package that is not ignored and is not in an ignored directory, by
its path from the root of the package, except for the manifest (and a directory with its name). -/
theorem C123_files {m : MemFS} (hm : m.Ok) (hT : m.Tree) (ign : Str → Bool) {S : List Str} (hS : Names S) (hdir : m.at S = some .dir) (k : Str) :
    k ∈ fileKeys m ign (absText S.reverse) ↔
      ∃ u, Names u ∧ (∀ c ∈ u, ign c = false) ∧ (∃ d s, m.at (u ++ S) = some (.file d s)) ∧ u.getLast? ≠ some manifestName ∧
        k = joinSep u.reverse := by
  obtain ⟨l, hl, -, hmem⟩ := list_place hm hS hdir
  have hdepth : ∀ f, IsName f → ∀ u, Names u → (m.at (u ++ ([f] ++ S))).isSome = true → u.length < depth m := by
    intro f hf u hu h
    have := depth_enough m _ (names_append hu (names_append (names_single hf) hS)) h
    simp at this
    omega
  unfold fileKeys
  rw [hl, Option.getD_some, List.mem_flatMap]
  constructor
  · rintro ⟨f, hf, hk⟩
    obtain ⟨hf1, hf2⟩ := List.mem_filter.1 hf
    have hfn := ((hmem f).1 hf1).1
    rw [show f = joinSep [f].reverse from rfl, mem_scan hm hT ign hS (depth m) [f] (names_single hfn) (by simp) (hdepth f hfn)] at hk
    obtain ⟨u, hu, hvis, hfile, e⟩ := hk
    rw [Bool.and_eq_true] at hf2
    refine ⟨u ++ [f], names_append hu (names_single hfn), ?_, by simpa using hfile, ?_, e⟩
    · intro c hc
      rcases List.mem_append.1 hc with h | h
      · have := List.all_eq_true.1 hvis c h
        simpa using this
      · rw [List.mem_singleton] at h; subst h
        simpa using hf2.1
    · intro e2
      have : f = manifestName := by simpa using e2
      subst this
      simp at hf2
  · rintro ⟨u, hu, hvis, ⟨d, s, hfile⟩, hne, e⟩
    rcases List.eq_nil_or_concat u with rfl | ⟨w, f, rfl⟩
    · rw [List.nil_append, hdir] at hfile; cases hfile
    · rw [List.concat_eq_append] at hu hvis hfile hne e
      have hf : IsName f := hu f (by simp)
      have hw : Names w := fun c hc => hu c (by simp [hc])
      have hsome : (m.at (f :: S)).isSome = true := by
        by_cases hw0 : w = []
        · subst hw0
          have h1 : m.at (f :: S) = some (.file d s) := hfile
          rw [h1]; rfl
        · rw [tree_up hT w (f :: S) (names_append hw (names_cons hf hS)) hw0 (by
              rw [show w ++ f :: S = w ++ [f] ++ S by simp, hfile]; rfl)]
          rfl
      have hfm : f ≠ manifestName := by
        rintro rfl
        exact hne (by simp)
      refine ⟨f, List.mem_filter.2 ⟨(hmem f).2 ⟨hf, hsome⟩, ?_⟩, ?_⟩
      · rw [Bool.and_eq_true, hvis f (by simp)]
        exact ⟨rfl, by simpa using hfm⟩
      · rw [show f = joinSep [f].reverse from rfl, mem_scan hm hT ign hS (depth m) [f] (names_single hf) (by simp) (hdepth f hf)]
        refine ⟨w, hw, ?_, ⟨d, s, by simpa using hfile⟩, e⟩
        unfold vis
        rw [List.all_eq_true]
        intro c hc
        simpa using hvis c (by simp [hc])

/-! ### The references -/

theorem keys_addRef (t : Table) (k : Str) (f : Nat) (x : Str) : x ∈ (addRef t k f).map (·.1) ↔ x ∈ t.map (·.1) ∨ x = k := by
  unfold addRef
  split
  · rename_i h
    rw [List.contains_iff_mem] at h
    have : (t.map (fun e => if e.1 = k then (e.1, e.2 ++ [f]) else e)).map (·.1) = t.map (·.1) := by
      rw [List.map_map]
      apply List.map_congr_left
      intro e _
      simp only [Function.comp]
      split <;> rfl
    rw [this]
    constructor
    · exact Or.inl
    · rintro (h2 | rfl)
      · exact h2
      · exact h
  · simp

/-- The files that refer to a path. -/
def lookupRefs (t : Table) (k : Str) : Option (List Nat) := (t.find? (·.1 == k)).map (·.2)

theorem lookup_cons (e : Str × List Nat) (t : Table) (k : Str) : lookupRefs (e :: t) k = if e.1 = k then some e.2 else lookupRefs t k := by
  unfold lookupRefs
  rw [List.find?_cons]
  by_cases h : e.1 = k
  · simp [h]
  · rw [beq_eq_false_iff_ne.2 h, if_neg h]

theorem lookup_map (t : Table) (k x : Str) (f : Nat) :
    lookupRefs (t.map (fun e => if e.1 = k then (e.1, e.2 ++ [f]) else e)) x =
      if x = k then (lookupRefs t k).map (· ++ [f]) else lookupRefs t x := by
  induction t with
  | nil => simp [lookupRefs]
  | cons e r ih =>
    rw [List.map_cons, lookup_cons, ih, lookup_cons, lookup_cons]
    by_cases hx : x = k
    · subst hx
      by_cases he : e.1 = x <;> simp [he]
    · by_cases he : e.1 = k
      · have hne : e.1 ≠ x := fun h => hx (h.symm.trans he)
        simp [he, hx, Ne.symm hx]
      · simp [he, hx]

theorem lookup_isSome (t : Table) (k : Str) : (lookupRefs t k).isSome = true ↔ k ∈ t.map (·.1) := by
  induction t with
  | nil => simp [lookupRefs]
  | cons e r ih =>
    rw [lookup_cons, List.map_cons, List.mem_cons, ← ih]
    by_cases h : e.1 = k
    · simp [h]
    · simp [h, Ne.symm h]

theorem lookup_snoc (t : Table) (k x : Str) (v : List Nat) (h : k ∉ t.map (·.1)) :
    lookupRefs (t ++ [(k, v)]) x = if x = k then some v else lookupRefs t x := by
  induction t with
  | nil =>
    rw [List.nil_append, lookup_cons]
    by_cases hx : x = k
    · simp [hx]
    · rw [if_neg (fun e => hx e.symm), if_neg hx]
  | cons e r ih =>
    simp only [List.map_cons, List.mem_cons, not_or] at h
    rw [List.cons_append, lookup_cons, lookup_cons, ih h.2]
    by_cases hx : x = k
    · subst hx
      rw [if_neg (fun e => h.1 e.symm)]
      simp
    · simp [hx]

theorem lookup_addRef (t : Table) (k : Str) (f : Nat) (x : Str) :
    lookupRefs (addRef t k f) x = if x = k then some ((lookupRefs t k).getD [] ++ [f]) else lookupRefs t x := by
  unfold addRef
  split
  · rename_i h
    rw [List.contains_iff_mem, ← lookup_isSome] at h
    rw [lookup_map]
    obtain ⟨v, hv⟩ := Option.isSome_iff_exists.1 h
    rw [hv]
    rfl
  · rename_i h
    rw [List.contains_iff_mem] at h
    rw [lookup_snoc _ _ _ _ h]
    have : lookupRefs t k = none := by
      rw [← lookup_isSome] at h
      simpa using h
    rw [this]
    rfl

theorem lookup_addRefs (refs : List (Option Str × Nat)) (t : Table) (x : Str) :
    lookupRefs (addRefs t refs) x =
      if (lookupRefs t x).isSome || refs.any (fun r => r.1 == some x) then
        some ((lookupRefs t x).getD [] ++ refs.filterMap (fun r => if r.1 = some x then some r.2 else none))
      else none := by
  induction refs generalizing t with
  | nil =>
    simp only [addRefs, List.foldl_nil, List.any_nil, Bool.or_false, List.filterMap_nil, List.append_nil]
    cases lookupRefs t x <;> simp
  | cons r rs ih =>
    have hstep : addRefs t (r :: rs) = addRefs (match r.1 with | some k => addRef t k r.2 | none => t) rs := rfl
    rw [hstep, ih]
    obtain ⟨o, f⟩ := r
    cases o with
    | none =>
      rw [List.any_cons, show ((none, f).1 == some x) = false from rfl, Bool.false_or]
      rfl
    | some k =>
      dsimp only
      rw [lookup_addRef]
      by_cases hx : x = k
      · subst hx
        simp
      · have hx' : ¬ k = x := fun e => hx e.symm
        rw [if_neg hx, List.any_cons, show ((some k, f).1 == some x) = false by simpa using hx', Bool.false_or, List.filterMap_cons]
        dsimp only
        rw [if_neg (show ¬ some k = some x by simpa using hx')]

/-- C123: after the references of the manifest are added, the table has a key for each of the files and for each path referred to in
the package, and gives for each the `File` objects that refer to it, in order. -/
theorem C123_refs (m : MemFS) (ign : Str → Bool) (root : Str) (refs : List (Option Str × Nat)) (k : Str) :
    lookupRefs (rebuild m ign root refs) k =
      if (fileKeys m ign root).contains k || refs.any (fun r => r.1 == some k) then some (refs.filterMap (fun r => if r.1 = some k then some r.2 else none))
      else none := by
  unfold rebuild
  rw [lookup_addRefs]
  have hkeys : ((fileKeys m ign root).map (fun k => (k, ([] : List Nat)))).map (·.1) = fileKeys m ign root := by
    rw [List.map_map]; simp [Function.comp_def]
  have hnil : (lookupRefs ((fileKeys m ign root).map (fun k => (k, ([] : List Nat)))) k).getD [] = [] := by
    generalize fileKeys m ign root = l
    induction l with
    | nil => rfl
    | cons a r ih =>
      rw [List.map_cons, lookup_cons]
      split
      · rfl
      · exact ih
  have hs : (lookupRefs ((fileKeys m ign root).map (fun k => (k, ([] : List Nat)))) k).isSome = (fileKeys m ign root).contains k := by
    rw [Bool.eq_iff_iff, lookup_isSome, hkeys, List.contains_iff_mem]
  rw [hs, hnil, List.nil_append]

example : fileKeys pkg1 ignDot [47, 112] = [[97, 47, 98]] := by decide +kernel
example : rebuild pkg1 ignDot [47, 112] [(some [120], 7), (none, 8), (some [97, 47, 98], 9)] = [([97, 47, 98], [9]), ([120], [7])] := by
  decide +kernel

/-! ### Unique paths -/

theorem hexDigit_inj {a b : Nat} (ha : a < 16) (hb : b < 16) (h : hexDigit a = hexDigit b) : a = b := by
  unfold hexDigit at h
  split at h <;> split at h <;> omega

theorem map_hexDigit_inj (a b : List Nat) (ha : ∀ d ∈ a, d < 16) (hb : ∀ d ∈ b, d < 16) (h : a.map hexDigit = b.map hexDigit) : a = b := by
  induction a generalizing b with
  | nil => cases b with
    | nil => rfl
    | cons y b => cases h
  | cons x a ih =>
    cases b with
    | nil => cases h
    | cons y b =>
      simp only [List.map_cons, List.cons.injEq] at h
      rw [hexDigit_inj (ha x (.head _)) (hb y (.head _)) h.1, ih b (fun d hd => ha d (.tail _ hd)) (fun d hd => hb d (.tail _ hd)) h.2]

theorem hexX_inj {a b : Nat} (h : hexX a = hexX b) : a = b := by
  have hz : ∀ n, n ≠ 0 → hexX n ≠ [48] := by
    intro n hn e
    unfold hexX at e
    rw [if_neg hn] at e
    have e2 : (Nat.digits 16 n).map hexDigit = [hexDigit 0] := by
      have := congrArg List.reverse e
      simpa [hexDigit] using this
    have e3 := map_hexDigit_inj (Nat.digits 16 n) [0] (fun d hd => Nat.digits_lt_base (by omega) hd) (by simp) e2
    have h3 := Nat.ofDigits_digits 16 n
    rw [e3] at h3
    exact hn (by simpa [Nat.ofDigits] using h3.symm)
  by_cases ha : a = 0
  · by_cases hb : b = 0
    · rw [ha, hb]
    · rw [ha] at h
      exact absurd h.symm (hz b hb)
  · by_cases hb : b = 0
    · rw [hb] at h
      exact absurd h (hz a ha)
    · unfold hexX at h
      rw [if_neg ha, if_neg hb, List.reverse_inj] at h
      have := map_hexDigit_inj _ _ (fun d hd => Nat.digits_lt_base (by omega) hd) (fun d hd => Nat.digits_lt_base (by omega) hd) h
      exact Nat.digits_inj_iff.1 this

theorem candidate_inj (p : Str) {a b : Nat} (h : candidate p a = candidate p b) : a = b := by
  unfold candidate at h
  rw [List.append_assoc, List.append_assoc, List.append_cancel_left_eq, List.cons_append, List.cons_append, List.cons.injEq,
    List.append_cancel_right_eq] at h
  exact hexX_inj h.2

theorem uniqLoop_stops (hc : Nat) (h : Str → Nat) (keys : List Str) (p : Str) (n : Nat) (extra : Nat)
    (hn : uniqLoop hc h keys p n extra = none) : ∀ i < n, candidate p (extra + i) ∈ keys := by
  induction n generalizing extra with
  | zero => intro i hi; omega
  | succ n ih =>
    unfold uniqLoop at hn
    split at hn
    · rename_i hs
      intro i hi
      cases i with
      | zero =>
        unfold strIn at hs
        rw [Bool.and_eq_true, List.contains_iff_mem] at hs
        exact hs.1
      | succ i =>
        have := ih (extra + 1) hn i (by omega)
        rwa [show extra + 1 + i = extra + (i + 1) by omega] at this
    · cases hn

theorem uniqLoop_some (hc : Nat) (h : Str → Nat) (keys : List Str) (p : Str) (n extra : Nat) (q : Str)
    (hq : uniqLoop hc h keys p n extra = some q) :
    strIn hc h keys q = false ∧ ∃ i, q = candidate p (extra + i) ∧ ∀ j < i, candidate p (extra + j) ∈ keys := by
  induction n generalizing extra with
  | zero => cases hq
  | succ n ih =>
    unfold uniqLoop at hq
    split at hq
    · rename_i hs
      obtain ⟨h1, i, h2, h3⟩ := ih (extra + 1) hq
      refine ⟨h1, i + 1, by rw [h2]; congr 1; omega, ?_⟩
      intro j hj
      cases j with
      | zero =>
        unfold strIn at hs
        rw [Bool.and_eq_true, List.contains_iff_mem] at hs
        exact hs.1
      | succ j =>
        have := h3 j (by omega)
        rwa [show extra + 1 + j = extra + (j + 1) by omega] at this
    · rename_i hs
      injection hq with hq
      subst hq
      exact ⟨by simpa using hs, 0, rfl, fun j hj => by omega⟩

/-- C122: the search for a unique path ends. -/
theorem C122_ends (lower : Str → Str) (hc : Nat) (h : Str → Nat) (keys : List Str) (root : Str) (rand : Nat) (s : Str) :
    getUnique lower hc h keys root rand s ≠ .forever := by
  unfold getUnique
  split
  · simp
  · split
    · simp
    · split
      · split
        · simp
        · rename_i p _ _ _ _ hn
          exfalso
          have h1 := uniqLoop_stops hc h keys _ _ _ hn
          have hnd : ((List.range (keys.length + 1)).map (fun i => candidate p (rand + i))).Nodup := by
            refine List.pairwise_map.2 (List.nodup_range.imp ?_)
            intro a b hab e
            have := candidate_inj p e
            omega
          have hsub : ((List.range (keys.length + 1)).map (fun i => candidate p (rand + i))).Subperm keys := by
            apply hnd.subperm
            intro x hx
            obtain ⟨i, hi, rfl⟩ := List.mem_map.1 hx
            exact h1 i (List.mem_range.1 hi)
          have := hsub.length_le
          simp at this
      · simp

/-- C122: the path is the one suggested, seen from the package, if it is not in the table, and otherwise that path with a number
before its extension.  It is not in the table in the first case, or when the hash of a path is that of its text.  (What is missing: the
hash of a path is not that of its text, so that the candidates are not looked up.) -/
theorem C122_unique_partial (lower : Str → Str) (hc : Nat) (h : Str → Nat) (keys : List Str) (root : Str) (rand : Nat) (s q : Str)
    (hq : getUnique lower hc h keys root rand s = .ok q) :
    ∃ p, pathInPath (if isAbs s then s else join root [lower s]) root = some p ∧
      (p ∉ keys → q = p) ∧ (p ∈ keys → ∃ n ≥ rand, q = (splitext p).1 ++ 95 :: hexX n ++ (splitext p).2) ∧
      (p ∉ keys ∨ (∀ t, hc ||| h t = h t) → q ∉ keys) := by
  unfold getUnique at hq
  split at hq
  · cases hq
  · rename_i p hp
    refine ⟨p, hp, ?_⟩
    split at hq
    · cases hq
    · split at hq
      · rename_i hin
        rw [List.contains_iff_mem] at hin
        split at hq
        · rename_i q' hq'
          injection hq with hq
          subst hq
          obtain ⟨h1, i, h2, -⟩ := uniqLoop_some hc h keys p _ _ _ hq'
          refine ⟨fun hn => absurd hin hn, fun _ => ⟨rand + i, by omega, h2⟩, ?_⟩
          rintro (hn | hh)
          · exact absurd hin hn
          · intro hk
            unfold strIn at h1
            rw [hh, beq_self_eq_true, Bool.and_true, List.contains_iff_mem.2 hk] at h1
            cases h1
        · cases hq
      · rename_i hnin
        rw [List.contains_iff_mem] at hnin
        injection hq with hq
        subst hq
        exact ⟨fun _ => rfl, fun hn => absurd hn hnin, fun _ => hnin⟩

/-- C122 is violated: when the path suggested is in the table, so may be the one returned.  Here `a.x` and `a_1.x` are in it, the random
number is 1, and the hash of the class has a bit that the hash of the text has not. -/
theorem C122_violation_taken :
    getUnique id 1 (fun _ => 2) [[97, 46, 120], [97, 95, 49, 46, 120]] [47, 112] 1 [97, 46, 120] = .ok [97, 95, 49, 46, 120] := by
  decide +kernel

/-- C122 is violated: without an extension, the number goes into the name of a directory: `a.d/b` becomes `a_1.d/b`. -/
theorem C122_violation_extension :
    getUnique id 1 (fun _ => 2) [[97, 46, 100, 47, 98]] [47, 112] 1 [97, 46, 100, 47, 98] = .ok [97, 95, 49, 46, 100, 47, 98] := by
  decide +kernel

/-- C122 is violated: the root of the package is not refused with the error for paths. -/
theorem C122_violation_root : getUnique id 1 (fun _ => 2) [] [47, 112] 1 [47, 112] = .attrError := by decide +kernel

/-- Unique candidates, when the hashes agree. -/
example : getUnique id 0 (fun _ => 2) [[97, 46, 120], [97, 95, 49, 46, 120]] [47, 112] 1 [97, 46, 120] = .ok [97, 95, 50, 46, 120] := by
  decide +kernel

end Verif.Pkg
