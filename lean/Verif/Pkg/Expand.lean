import Verif.Vfs.C105b

/-!
# C120: expanding the archive of a content package (pyslet/imscpv1p2.py:640-690)

The archive is a list of entries, each with its name, the flag bits of its header and its contents.  The file
system is the one in memory (`Verif.Vfs`); like it, this leaves out symbolic links, drives and the insensitivity to
case (`normcase` changes nothing).
-/
namespace Verif.Pkg
open Verif.Vfs

/-! ### Model -/

/-- The loop of `package_path`, imscpv1p2.py:647-652, for a number of rounds; a round makes the path shorter. -/
def relLoop (root : Str) : Nat → Str → List Str → Option (List Str)
  | 0, _, _ => none
  | k + 1, p, rel =>
    if p = root then some rel
    else if (split p).1 = [] ∨ (split p).2 = [] then none
    else relLoop root k (split p).1 ((split p).2 :: rel)

/-- `package_path`, imscpv1p2.py:640-653. -/
def packagePath (root p : Str) : Option Str := (relLoop root (p.length + 1) p []).map mkPath

/-- An entry of an archive: `zfi.filename`, `zfi.flag_bits` and the contents. -/
structure Entry where
  name : Str
  flags : Nat
  data : List Nat

/-- `CPZIPFilenameError`, `CPZIPDirectorySizeError`, `CPZIPDuplicateFileError`, an error of the file system, an error
in a character code. -/
inductive Err
  | name | dirSize | duplicate | os | code
  deriving DecidableEq

/-- imscpv1p2.py:667-672: a segment of a name; `recode` is `encode('cp437').decode('utf-8')`. -/
def segText (recode : Str → Option Str) (flags : Nat) (seg : Str) : Option Str :=
  if flags ^^^ 0x800 ≠ 0 then recode seg else some seg

/-- A round of the loop over the segments of a name, imscpv1p2.py:663-675. -/
def segStep (recode : Str → Option Str) (root : Str) (flags : Nat) (m : MemFS) (path seg : Str) : MemFS × Except Err Str :=
  let r := if m.isDir path then (m, true) else m.mkdir path
  if r.2 = false then (r.1, .error .os)
  else
    match segText recode flags seg with
    | none => (r.1, .error .code)
    | some s =>
      if (packagePath root (normpath (join path [s]))).isNone then (r.1, .error .name)
      else (r.1, .ok (normpath (join path [s])))

/-- The loop over the segments. -/
def segLoop (recode : Str → Option Str) (root : Str) (flags : Nat) : MemFS → Str → List Str → MemFS × Except Err Str
  | m, path, [] => (m, .ok path)
  | m, path, seg :: r =>
    match segStep recode root flags m path seg with
    | (m, .error e) => (m, .error e)
    | (m, .ok path) => segLoop recode root flags m path r

/-- Writing the contents: `path.open('wb')`, `f.write(...)`, `f.close()`, imscpv1p2.py:684-688. -/
def putFile (m : MemFS) (path : Str) (data : List Nat) : MemFS × Option Err :=
  match m.openPath path (.w false) with
  | (m, false) => (m, some .os)
  | (m, true) => ((m.write (m.real path) data).close (m.real path), none)

/-- An entry, imscpv1p2.py:662-688. -/
def expandEntry (recode : Str → Option Str) (root : Str) (m : MemFS) (e : Entry) : MemFS × Option Err :=
  match segLoop recode root e.flags m root (comps e.name) with
  | (m, .error x) => (m, some x)
  | (m, .ok path) =>
    if m.isDir path then (m, if e.data.length > 0 then some .dirSize else none)
    else if m.pathExists path then (m, some .duplicate)
    else putFile m path e.data

/-- `expand_zip`, imscpv1p2.py:655-690: the first error ends it. -/
def expandZip (recode : Str → Option Str) (root : Str) : MemFS → List Entry → MemFS × Option Err
  | m, [] => (m, none)
  | m, e :: r =>
    match expandEntry recode root m e with
    | (m, some x) => (m, some x)
    | (m, none) => expandZip recode root m r

/-! ### Specification -/

/-- The segments of a name, decoded; `none` when one of them cannot be. -/
def segs (recode : Str → Option Str) (flags : Nat) : List Str → Option (List Str)
  | [] => some []
  | a :: r =>
    match segText recode flags a, segs recode flags r with
    | some x, some l => some (x :: l)
    | _, _ => none

/-- A place is on the way of an entry: it is where the first few segments of its name lead from `D`. -/
def OnWay (recode : Str → Option Str) (D : List Str) (e : Entry) (u : List Str) : Prop :=
  ∃ k l, segs recode e.flags ((comps e.name).take k) = some l ∧ u = l.foldl go D

/-- From `m` to `m'`, nothing is changed that was there, and what is new is inside `D`, on the way of an entry. -/
def Grows (recode : Str → Option Str) (D : List Str) (es : List Entry) (m m' : MemFS) : Prop :=
  ∀ u, Names u → m'.at u = m.at u ∨
    (m.at u = none ∧ u ≠ D ∧ D <:+ u ∧ (m'.at u = some .dir ∨ ∃ e ∈ es, m'.at u = some (.file e.data none)) ∧
      ∃ e ∈ es, OnWay recode D e u)

/-! ### Paths -/

theorem length_absText (l : List Str) (h : ∀ c ∈ l, IsName c) : l.length ≤ (absText l).length := by
  unfold absText
  induction l with
  | nil => simp
  | cons a r ih =>
    cases r with
    | nil => simp [joinSep]
    | cons b r =>
      have := ih (fun c hc => h c (by simp [hc]))
      simp only [joinSep, List.length_cons, List.length_append] at this ⊢
      omega

theorem suffix_iff_drop (D t : List Str) : D <:+ t ↔ ∃ u, t = u ++ D := by
  constructor
  · rintro ⟨u, e⟩; exact ⟨u, e.symm⟩
  · rintro ⟨u, e⟩; exact ⟨u, e.symm⟩

theorem relLoop_place (D : List Str) (hD : Names D) (k : Nat) (t : List Str) (ht : Names t) (hk : t.length < k) (rel : List Str) :
    relLoop (absText D.reverse) k (absText t.reverse) rel =
      if D <:+ t then some ((t.take (t.length - D.length)).reverse ++ rel) else none := by
  induction k generalizing t rel with
  | zero => omega
  | succ k ih =>
    unfold relLoop
    by_cases hp : absText t.reverse = absText D.reverse
    · have := (absText_eq_iff hD ht).1 hp
      subst this
      simp
    · have hne : t ≠ D := fun e => hp (by rw [e])
      rw [if_neg hp]
      cases t with
      | nil =>
        rw [show absText ([] : List Str).reverse = absText [] from rfl, split_root, if_pos (Or.inr rfl), if_neg]
        intro h
        exact hne (List.suffix_nil.1 h).symm
      | cons x t =>
        have hx : IsName x := ht x (by simp)
        have ht' : Names t := fun c hc => ht c (by simp [hc])
        rw [split_stack t x hx]
        dsimp only
        rw [if_neg (by
          rintro (h | h)
          · exact absurd h (by simp [absText])
          · exact hx.1 h)]
        rw [ih t ht' (by simp at hk; omega)]
        have hsuf : D <:+ x :: t ↔ D <:+ t := by
          rw [List.suffix_cons_iff]
          constructor
          · rintro (h | h)
            · exact absurd h.symm hne
            · exact h
          · exact Or.inr
        by_cases hs : D <:+ t
        · rw [if_pos hs, if_pos (hsuf.2 hs)]
          have := hs.length_le
          rw [show (x :: t).length - D.length = (t.length - D.length) + 1 by simp; omega]
          simp
        · rw [if_neg hs, if_neg (fun h => hs (hsuf.1 h))]

theorem relLoop_packagePath (D t : List Str) (hD : Names D) (ht : Names t) :
    relLoop (absText D.reverse) ((absText t.reverse).length + 1) (absText t.reverse) [] =
      if D <:+ t then some (t.take (t.length - D.length)).reverse else none := by
  have := relLoop_place D hD ((absText t.reverse).length + 1) t ht (by
    have := length_absText t.reverse (fun c hc => ht c (List.mem_reverse.1 hc))
    rw [List.length_reverse] at this
    omega) []
  simpa using this

theorem packagePath_isNone (D t : List Str) (hD : Names D) (ht : Names t) :
    (packagePath (absText D.reverse) (absText t.reverse)).isNone = true ↔ ¬ D <:+ t := by
  unfold packagePath
  rw [relLoop_packagePath D t hD ht]
  by_cases h : D <:+ t <;> simp [h]

theorem noDouble_nosep {s : Str} (h : 47 ∉ s) : NoDouble s := by
  intro a b e
  exact h (by rw [e]; simp)

theorem resolve_seg (d : List Str) (s : Str) (h : 47 ∉ s) : resolve d s = go d s := by
  unfold resolve
  rw [comps_plain h, isAbs_nosep h]
  rfl

theorem go_names {t : List Str} (ht : Names t) {s : Str} (hs : 47 ∉ s) : Names (go t s) := by
  unfold go
  split
  · exact ht
  · split
    · exact names_tail ht
    · rename_i h1 h2
      intro c hc
      cases hc with
      | head => exact ⟨fun e => h1 (Or.inl e), fun e => h1 (Or.inr e), h2, hs⟩
      | tail _ hc => exact ht c hc

theorem norm_join_place (t : List Str) (ht : Names t) (s : Str) (hs : 47 ∉ s) :
    normpath (join (absText t.reverse) [s]) = absText (go t s).reverse := by
  have hr : ∀ c ∈ t.reverse, IsName c := fun c hc => ht c (List.mem_reverse.1 hc)
  have ha : isAbs (absText t.reverse) = true := rfl
  rw [C104_norm_abs_partial _ (isAbs_join ha s) (noDouble_join (noDouble_absText _ hr) (noDouble_nosep hs) ha), C104_join]
  simp only [List.foldl_cons, List.foldl_nil]
  rw [resolve_absText _ hr, List.reverse_reverse, resolve_seg _ _ hs]

/-! ### The loop over the segments -/

/-- Decoding makes no separators. -/
def Clean (recode : Str → Option Str) : Prop := ∀ s r, recode s = some r → 47 ∉ s → 47 ∉ r

theorem segText_clean {recode : Str → Option Str} (h : Clean recode) {flags : Nat} {seg s : Str} (hs : 47 ∉ seg)
    (e : segText recode flags seg = some s) : 47 ∉ s := by
  unfold segText at e
  split at e
  · exact h _ _ e hs
  · injection e with e; subst e; exact hs

theorem absText_noDouble {t : List Str} (ht : Names t) : NoDouble (absText t.reverse) :=
  noDouble_absText _ (fun c hc => ht c (List.mem_reverse.1 hc))

theorem isDir_place {m : MemFS} (hm : m.Ok) {t : List Str} (ht : Names t) : m.isDir (absText t.reverse) = true ↔ m.at t = some .dir := by
  have := (C105_tests hm _ (absText_noDouble ht)).2.1
  rwa [place_absText m t ht] at this

theorem exists_place {m : MemFS} (hm : m.Ok) {t : List Str} (ht : Names t) : m.pathExists (absText t.reverse) = (m.at t).isSome := by
  have := (C105_tests hm _ (absText_noDouble ht)).1
  rwa [place_absText m t ht] at this

/-- What is known in the loop. -/
structure Inv (D : List Str) (m : MemFS) : Prop where
  ok : m.Ok
  root : m.at D = some .dir

/-- The directory made for a round, if it is missing. -/
theorem ensure_dir {D : List Str} {m : MemFS} (hm : Inv D m) {t : List Str} (ht : Names t) (hD : D <:+ t) :
    let r := if m.isDir (absText t.reverse) then (m, true) else m.mkdir (absText t.reverse)
    Inv D r.1 ∧ (∀ u, Names u → r.1.at u = m.at u ∨ (m.at u = none ∧ u = t ∧ t ≠ D ∧ r.1.at u = some .dir)) ∧
      (r.2 = true → r.1.at t = some .dir) ∧
      (r.2 = true ↔ m.at t = some .dir ∨ (m.at t = none ∧ (t.tail = [] ∨ (m.at t.tail).isSome = true))) := by
  dsimp only
  by_cases hd : m.isDir (absText t.reverse) = true
  · rw [if_pos hd]
    have h := (isDir_place hm.ok ht).1 hd
    exact ⟨hm, fun u _ => Or.inl rfl, fun _ => h, by simp [h]⟩
  · rw [if_neg hd]
    have hnd : m.at t ≠ some .dir := fun e => hd ((isDir_place hm.ok ht).2 e)
    have hne : t ≠ D := by rintro rfl; exact hnd hm.root
    obtain ⟨h1, h2, h3⟩ := C105_mkdir hm.ok _ (absText_noDouble ht)
    rw [place_absText m t ht] at h1 h2 h3
    have htne : t ≠ [] := by
      rintro rfl
      exact hne (List.suffix_nil.1 hD).symm
    have hroot : (m.mkdir (absText t.reverse)).1.at [] = m.at [] := by
      rw [h3]
      split
      · rename_i hh
        exfalso
        have hDn : D = [] := by
          cases t with
          | nil => exact absurd rfl htne
          | cons x t =>
            rcases List.suffix_cons_iff.1 hD with e | e
            · exact absurd e.symm hne
            · rw [show t = [] from hh.1] at e; exact List.suffix_nil.1 e
        rw [← hDn, hm.root] at hh
        exact absurd hh.2 (by simp)
      · rfl
    have hat : ∀ u, Names u → (m.mkdir (absText t.reverse)).1.at u =
        if (m.mkdir (absText t.reverse)).2 = true ∧ u = t then some .dir else m.at u := by
      intro u hu
      by_cases hu0 : u = []
      · subst hu0
        rw [hroot, if_neg (fun h => htne h.2.symm)]
      · exact h2 u hu hu0
    have hDn : Names D := fun c hc => ht c (hD.subset hc)
    have hok : (m.mkdir (absText t.reverse)).1.Ok := C105_ok hm.ok (.mkdir (absText t.reverse)) (absText_noDouble ht)
    refine ⟨⟨hok, ?_⟩, ?_, ?_, ?_⟩
    · rw [hat D hDn, if_neg (fun h => hne h.2.symm)]; exact hm.root
    · intro u hu
      rw [hat u hu]
      split
      · rename_i h
        obtain ⟨ha, rfl⟩ := h
        exact Or.inr ⟨(h1.1 ha).1, rfl, hne, rfl⟩
      · exact Or.inl rfl
    · intro h
      rw [hat t ht, if_pos ⟨h, rfl⟩]
    · rw [h1]
      constructor
      · exact Or.inr
      · rintro (h | h)
        · exact absurd h hnd
        · exact h

theorem segStep_spec {recode : Str → Option Str} (hc : Clean recode) {D : List Str} (hDn : Names D) {m : MemFS} (hm : Inv D m)
    {t : List Str} (ht : Names t) (hD : D <:+ t) (flags : Nat) (seg : Str) (hseg : 47 ∉ seg) :
    let r := segStep recode (absText D.reverse) flags m (absText t.reverse) seg
    Inv D r.1 ∧ (∀ u, Names u → r.1.at u = m.at u ∨ (m.at u = none ∧ u = t ∧ t ≠ D ∧ r.1.at u = some .dir)) ∧
      ∀ p, r.2 = .ok p → ∃ s, segText recode flags seg = some s ∧ p = absText (go t s).reverse ∧ Names (go t s) ∧
        D <:+ go t s ∧ r.1.at t = some .dir := by
  obtain ⟨h1, h2, h3, -⟩ := ensure_dir hm ht hD
  unfold segStep
  dsimp only
  generalize (if m.isDir (absText t.reverse) = true then (m, true) else m.mkdir (absText t.reverse)) = r at h1 h2 h3 ⊢
  cases hr : r.2 with
  | false => simp only [if_true]; exact ⟨h1, h2, fun p h => (nomatch h)⟩
  | true =>
    simp only [Bool.true_eq_false, if_false]
    cases hs : segText recode flags seg with
    | none => exact ⟨h1, h2, fun p h => (nomatch h)⟩
    | some s =>
      dsimp only
      have hcs := segText_clean hc hseg hs
      rw [norm_join_place t ht s hcs]
      have hg := go_names ht hcs
      split
      · exact ⟨h1, h2, fun p h => (nomatch h)⟩
      · rename_i hn
        refine ⟨h1, h2, ?_⟩
        intro p hp
        injection hp with hp
        subst hp
        refine ⟨s, rfl, rfl, hg, ?_, h3 hr⟩
        by_cases hd : D <:+ go t s
        · exact hd
        · exact absurd ((packagePath_isNone D _ hDn hg).2 hd) hn

theorem segLoop_spec {recode : Str → Option Str} (hc : Clean recode) {D : List Str} (hDn : Names D) (flags : Nat) (l : List Str)
    (hl : ∀ a ∈ l, 47 ∉ a) (m : MemFS) (hm : Inv D m) (t : List Str) (ht : Names t) (hD : D <:+ t) :
    let r := segLoop recode (absText D.reverse) flags m (absText t.reverse) l
    Inv D r.1 ∧ (∀ u, Names u → r.1.at u = m.at u ∨ (m.at u = none ∧ u ≠ D ∧ D <:+ u ∧ r.1.at u = some .dir ∧
        ∃ k ss, segs recode flags (l.take k) = some ss ∧ u = ss.foldl go t)) ∧
      ∀ p, r.2 = .ok p → ∃ ss, segs recode flags l = some ss ∧ p = absText (ss.foldl go t).reverse ∧ Names (ss.foldl go t) ∧
        D <:+ ss.foldl go t ∧ ∀ k, D <:+ (ss.take k).foldl go t := by
  induction l generalizing m t with
  | nil =>
    refine ⟨hm, fun u _ => Or.inl rfl, ?_⟩
    intro p hp
    injection hp with hp
    subst hp
    exact ⟨[], rfl, rfl, ht, hD, fun k => by simpa using hD⟩
  | cons a r ih =>
    obtain ⟨h1, h2, h3⟩ := segStep_spec hc hDn hm ht hD flags a (hl a (.head _))
    unfold segLoop
    dsimp only
    generalize segStep recode (absText D.reverse) flags m (absText t.reverse) a = q at h1 h2 h3 ⊢
    obtain ⟨m1, res⟩ := q
    have hfirst : ∀ u, Names u → m1.at u = m.at u ∨ (m.at u = none ∧ u ≠ D ∧ D <:+ u ∧ m1.at u = some .dir ∧
        ∃ k ss, segs recode flags ((a :: r).take k) = some ss ∧ u = ss.foldl go t) := by
      intro u hu
      rcases h2 u hu with h | ⟨ha, rfl, hb, hd⟩
      · exact Or.inl h
      · exact Or.inr ⟨ha, hb, hD, hd, 0, [], rfl, rfl⟩
    cases res with
    | error e => exact ⟨h1, hfirst, fun p hp => (nomatch hp)⟩
    | ok p1 =>
      obtain ⟨s, hs, hp1, hgn, hgD, hdir⟩ := h3 p1 rfl
      dsimp only at hp1 ⊢
      subst hp1
      obtain ⟨k1, k2, k3⟩ := ih (fun b hb => hl b (.tail _ hb)) m1 h1 (go t s) hgn hgD
      refine ⟨k1, ?_, ?_⟩
      · intro u hu
        rcases k2 u hu with h | ⟨ha, hb, hcD, hd, k, ss, hss, hus⟩
        · rw [h]; exact hfirst u hu
        · refine Or.inr ⟨?_, hb, hcD, hd, k + 1, s :: ss, ?_, by simpa using hus⟩
          · rcases h2 u hu with h | ⟨h, -⟩
            · rw [← h]; exact ha
            · exact h
          · simp only [List.take_succ_cons, segs, hs, hss]
      · intro p hp
        obtain ⟨ss, hss, hpp, hn, hd, hk⟩ := k3 p hp
        refine ⟨s :: ss, ?_, by simpa using hpp, by simpa using hn, by simpa using hd, ?_⟩
        · simp only [segs, hs, hss]
        · intro k
          cases k with
          | zero => exact hD
          | succ k => simpa using hk k

/-! ### Writing a file -/

theorem putFile_spec {D : List Str} (hDn : Names D) {m : MemFS} (hm : Inv D m) {t : List Str} (ht : Names t) (hne : t ≠ D) (hnone : m.at t = none)
    (data : List Nat) :
    let r := putFile m (absText t.reverse) data
    Inv D r.1 ∧ (r.2 = none → r.1.at t = some (.file data none) ∧ ∀ u, Names u → u ≠ t → r.1.at u = m.at u) ∧
      (r.2 ≠ none → ∀ u, Names u → r.1.at u = m.at u) ∧ (t ≠ [] → r.2 = none) := by
  have hnd := absText_noDouble ht
  obtain ⟨h1, h2, h3⟩ := C105_open hm.ok (absText t.reverse) hnd (.w false)
  rw [place_absText m t ht] at h1 h2 h3
  have hok1 : (m.openPath (absText t.reverse) (.w false)).1.Ok := C105_ok hm.ok (.openPath (absText t.reverse) (.w false)) hnd
  have hw := C105_write hm.ok (absText t.reverse) hnd false false [data] [] (Or.inr ⟨by rw [place_absText m t ht]; exact hnone, rfl⟩)
  rw [place_absText m t ht] at hw
  simp only [Bool.false_eq_true, if_false] at hw
  unfold putFile
  dsimp only
  have hdirlike : t ≠ [] → isDirlike (absText t.reverse) = false := by
    intro hne0
    rw [Bool.eq_false_iff]
    intro hd
    cases t with
    | nil => exact hne0 rfl
    | cons x r =>
      have hx : IsName x := ht x (by simp)
      have hsp := split_stack r x hx
      rcases (C104_dirlike _).1 hd with ⟨a, e⟩ | ⟨a, e⟩
      · rw [e, split] at hsp
        rw [show a ++ [47] = a ++ 47 :: [] from rfl, rsplit_append 47 a [] (by simp)] at hsp
        exact hx.1 (congrArg Prod.snd hsp).symm
      · rw [e, split] at hsp
        rw [show a ++ [47, 46] = a ++ 47 :: [46] from rfl, rsplit_append 47 a [46] (by simp)] at hsp
        exact hx.2.1 (congrArg Prod.snd hsp).symm
  cases hr : m.openPath (absText t.reverse) (.w false) with
  | mk m1 b =>
    rw [hr] at h1 h2 h3 hok1 hw
    dsimp only at h1 h2 h3 hok1 hw
    cases b with
    | false =>
      dsimp only
      have hsame : ∀ u, Names u → m1.at u = m.at u := fun u hu => h3 u hu (Or.inr rfl)
      refine ⟨⟨hok1, by rw [hsame D hDn]; exact hm.root⟩, fun h => (nomatch h), fun _ => hsame, ?_⟩
      intro hne0
      exfalso
      refine absurd (h1.2 ⟨by simp [absText], hdirlike hne0, ?_, ?_⟩) (by simp)
      · rw [hnone]; simp
      · rw [hnone]; simp
    | true =>
      dsimp only
      rw [real_absText hok1 t ht]
      obtain ⟨w1, w2⟩ := hw rfl
      have he : m1.writes (absText t.reverse) [data] = m1.write (absText t.reverse) data := rfl
      rw [he] at w1 w2
      have hokw : ((m1.write (absText t.reverse) data).close (absText t.reverse)).Ok :=
        C105_ok (C105_ok hok1 (.write (absText t.reverse) data) hnd) (.close (absText t.reverse)) hnd
      refine ⟨⟨hokw, ?_⟩, fun _ => ⟨?_, w2⟩, fun h => absurd rfl h, fun _ => rfl⟩
      · rw [w2 D hDn (fun e => hne e.symm)]; exact hm.root
      · simpa using w1

/-! ### Entries -/

theorem expandEntry_spec {recode : Str → Option Str} (hc : Clean recode) {D : List Str} (hDn : Names D) {m : MemFS} (hm : Inv D m)
    (e : Entry) :
    let r := expandEntry recode (absText D.reverse) m e
    Inv D r.1 ∧ Grows recode D [e] m r.1 ∧
      (r.2 = none → ∃ l, segs recode e.flags (comps e.name) = some l ∧ (∀ k, D <:+ (l.take k).foldl go D) ∧
        (r.1.at (l.foldl go D) = some (.file e.data none) ∧ m.at (l.foldl go D) = none ∨
          r.1.at (l.foldl go D) = some .dir ∧ e.data = [])) := by
  obtain ⟨h1, h2, h3⟩ := segLoop_spec hc hDn e.flags (comps e.name) (comps_nosep e.name) m hm D hDn (List.suffix_refl D)
  unfold expandEntry
  dsimp only
  generalize segLoop recode (absText D.reverse) e.flags m (absText D.reverse) (comps e.name) = q at h1 h2 h3 ⊢
  obtain ⟨m1, res⟩ := q
  dsimp only at h1 h2 h3
  have hg : Grows recode D [e] m m1 := by
    intro u hu
    rcases h2 u hu with h | ⟨ha, hb, hcD, hd, k, ss, hss, hus⟩
    · exact Or.inl h
    · exact Or.inr ⟨ha, hb, hcD, Or.inl hd, e, by simp, k, ss, hss, hus⟩
  cases res with
  | error x => exact ⟨h1, hg, fun h => (nomatch h)⟩
  | ok p =>
    obtain ⟨ss, hss, hp, hn, hD, hpre⟩ := h3 p rfl
    subst hp
    dsimp only
    generalize htt : ss.foldl go D = t at hn hD
    split
    · rename_i hd
      have hat := (isDir_place h1.ok hn).1 hd
      refine ⟨h1, hg, ?_⟩
      intro hno
      refine ⟨ss, hss, hpre, ?_⟩
      rw [htt]
      refine Or.inr ⟨hat, ?_⟩
      split at hno
      · cases hno
      · rename_i hlen; exact List.eq_nil_of_length_eq_zero (by omega)
    · rename_i hd
      split
      · exact ⟨h1, hg, fun h => (nomatch h)⟩
      · rename_i hex
        have hnone : m1.at t = none := by
          rw [exists_place h1.ok hn] at hex
          cases h : m1.at t with
          | none => rfl
          | some i => rw [h] at hex; exact absurd rfl hex
        have hne : t ≠ D := by
          intro e; rw [e, h1.root] at hnone; cases hnone
        obtain ⟨p1, p2, p3, -⟩ := putFile_spec hDn h1 hn hne hnone e.data
        have hmt : m.at t = none := by
          rcases h2 t hn with h | ⟨ha, hb, hcD, hd', -⟩
          · rw [← h]; exact hnone
          · exact ha
        refine ⟨p1, ?_, ?_⟩
        · cases hr : (putFile m1 (absText t.reverse) e.data).2 with
          | some x =>
            intro u hu
            rw [p3 (by rw [hr]; simp) u hu]
            exact hg u hu
          | none =>
            obtain ⟨q1, q2⟩ := p2 hr
            intro u hu
            by_cases hut : u = t
            · subst hut
              refine Or.inr ⟨hmt, hne, hD, Or.inr ⟨e, by simp, q1⟩, e, by simp, (comps e.name).length, ss, ?_, htt.symm⟩
              rw [List.take_length]; exact hss
            · rw [q2 u hu hut]; exact hg u hu
        · intro hno
          obtain ⟨q1, -⟩ := p2 hno
          refine ⟨ss, hss, hpre, ?_⟩
          rw [htt]
          exact Or.inl ⟨q1, hmt⟩

theorem Grows.mono {recode : Str → Option Str} {D : List Str} {es fs : List Entry} (h : ∀ e ∈ es, e ∈ fs) {m m' : MemFS}
    (hg : Grows recode D es m m') : Grows recode D fs m m' := by
  intro u hu
  rcases hg u hu with h1 | ⟨h1, h2, h3, h4, e, he, h5⟩
  · exact Or.inl h1
  · refine Or.inr ⟨h1, h2, h3, ?_, e, h e he, h5⟩
    rcases h4 with h4 | ⟨e', he', h4⟩
    · exact Or.inl h4
    · exact Or.inr ⟨e', h e' he', h4⟩

theorem Grows.trans {recode : Str → Option Str} {D : List Str} {es : List Entry} {a b c : MemFS}
    (h1 : Grows recode D es a b) (h2 : Grows recode D es b c) : Grows recode D es a c := by
  intro u hu
  rcases h2 u hu with h | ⟨k1, k2, k3, k4, k5⟩
  · rw [h]; exact h1 u hu
  · rcases h1 u hu with h | ⟨g1, -⟩
    · exact Or.inr ⟨by rw [← h]; exact k1, k2, k3, k4, k5⟩
    · exact Or.inr ⟨g1, k2, k3, k4, k5⟩

theorem Grows.keeps {recode : Str → Option Str} {D : List Str} {es : List Entry} {a b : MemFS} (h : Grows recode D es a b)
    {u : List Str} (hu : Names u) {i : Item} (hi : a.at u = some i) : b.at u = some i := by
  rcases h u hu with h | ⟨h, -⟩
  · rw [h]; exact hi
  · rw [hi] at h; cases h

theorem foldl_go_names {D : List Str} (hDn : Names D) (l : List Str) (hl : ∀ a ∈ l, 47 ∉ a) : Names (l.foldl go D) := by
  induction l generalizing D with
  | nil => exact hDn
  | cons a r ih => exact ih (go_names hDn (hl a (.head _))) (fun b hb => hl b (.tail _ hb))

theorem segs_clean {recode : Str → Option Str} (hc : Clean recode) (flags : Nat) (l ss : List Str) (hl : ∀ a ∈ l, 47 ∉ a)
    (h : segs recode flags l = some ss) : ∀ a ∈ ss, 47 ∉ a := by
  induction l generalizing ss with
  | nil => injection h with h; subst h; intro a ha; cases ha
  | cons a r ih =>
    simp only [segs] at h
    cases h1 : segText recode flags a with
    | none => rw [h1] at h; cases h
    | some x =>
      cases h2 : segs recode flags r with
      | none => rw [h1, h2] at h; cases h
      | some l =>
        rw [h1, h2] at h
        injection h with h; subst h
        intro b hb
        cases hb with
        | head => exact segText_clean hc (hl a (.head _)) h1
        | tail _ hb => exact ih l (fun b hb => hl b (.tail _ hb)) h2 b hb

theorem expandZip_spec {recode : Str → Option Str} (hc : Clean recode) {D : List Str} (hDn : Names D) (es : List Entry) (m : MemFS)
    (hm : Inv D m) :
    let r := expandZip recode (absText D.reverse) m es
    Inv D r.1 ∧ Grows recode D es m r.1 ∧
      (r.2 = none → ∀ e ∈ es, ∃ l, segs recode e.flags (comps e.name) = some l ∧ (∀ k, D <:+ (l.take k).foldl go D) ∧
        (r.1.at (l.foldl go D) = some (.file e.data none) ∧ m.at (l.foldl go D) = none ∨
          r.1.at (l.foldl go D) = some .dir ∧ e.data = [])) := by
  induction es generalizing m with
  | nil => exact ⟨hm, fun u _ => Or.inl rfl, fun _ e he => (nomatch he)⟩
  | cons e es ih =>
    obtain ⟨h1, h2, h3⟩ := expandEntry_spec hc hDn hm e
    unfold expandZip
    dsimp only
    generalize expandEntry recode (absText D.reverse) m e = q at h1 h2 h3 ⊢
    obtain ⟨m1, o⟩ := q
    dsimp only at h1 h2 h3
    have hmono : Grows recode D (e :: es) m m1 := h2.mono (fun x hx => by simp at hx; subst hx; exact .head _)
    cases o with
    | some x => exact ⟨h1, hmono, fun h => (nomatch h)⟩
    | none =>
      dsimp only
      obtain ⟨k1, k2, k3⟩ := ih m1 h1
      have k2' : Grows recode D (e :: es) m1 (expandZip recode (absText D.reverse) m1 es).1 := k2.mono (fun x hx => .tail _ hx)
      refine ⟨k1, hmono.trans k2', ?_⟩
      intro hno f hf
      cases hf with
      | head =>
        obtain ⟨l, hl, hpre, hh⟩ := h3 rfl
        have hnl := foldl_go_names hDn l (segs_clean hc _ _ _ (comps_nosep _) hl)
        refine ⟨l, hl, hpre, ?_⟩
        rcases hh with ⟨a, b⟩ | ⟨a, b⟩
        · exact Or.inl ⟨k2.keeps hnl a, b⟩
        · exact Or.inr ⟨k2.keeps hnl a, b⟩
      | tail _ hf =>
        obtain ⟨l, hl, hpre, hh⟩ := k3 hno f hf
        refine ⟨l, hl, hpre, ?_⟩
        rcases hh with ⟨a, b⟩ | h
        · have hnl := foldl_go_names hDn l (segs_clean hc _ _ _ (comps_nosep _) hl)
          refine Or.inl ⟨a, ?_⟩
          rcases h2 _ hnl with h | ⟨h, -⟩
          · rw [← h]; exact b
          · exact h
        · exact Or.inr h

end Verif.Pkg
