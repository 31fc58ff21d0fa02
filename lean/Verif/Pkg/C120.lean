import Verif.Pkg.Expand

/-!
# C120: expanding an archive stays inside the directory of the package and overwrites nothing
-/
namespace Verif.Pkg
open Verif.Vfs

/-- C120: whatever the names of the entries are, and whether it succeeds or fails, expanding an archive changes nothing outside the
directory of the package, and nothing that is there already. -/
theorem C120_contained {recode : Str → Option Str} (hc : Clean recode) {D : List Str} (hDn : Names D) (es : List Entry) {m : MemFS}
    (hm : m.Ok) (hroot : m.at D = some .dir) :
    let r := expandZip recode (absText D.reverse) m es
    (∀ u, Names u → ¬ D <:+ u → r.1.at u = m.at u) ∧ (∀ u i, Names u → m.at u = some i → r.1.at u = some i) ∧ r.1.Ok := by
  obtain ⟨h1, h2, -⟩ := expandZip_spec hc hDn es m ⟨hm, hroot⟩
  refine ⟨?_, fun u i hu hi => h2.keeps hu hi, h1.ok⟩
  intro u hu hn
  rcases h2 u hu with h | ⟨-, -, h, -⟩
  · exact h
  · exact absurd h hn

/-- C120: what is new is a directory, or a file with the contents of an entry, at a place where the first segments of the name of an
entry lead. -/
theorem C120_origin {recode : Str → Option Str} (hc : Clean recode) {D : List Str} (hDn : Names D) (es : List Entry) {m : MemFS}
    (hm : m.Ok) (hroot : m.at D = some .dir) (u : List Str) (hu : Names u) (i : Item)
    (hi : (expandZip recode (absText D.reverse) m es).1.at u = some i) (hnew : m.at u ≠ some i) :
    (i = .dir ∨ ∃ e ∈ es, i = .file e.data none) ∧ D <:+ u ∧
      ∃ e ∈ es, ∃ k l, segs recode e.flags ((comps e.name).take k) = some l ∧ u = l.foldl go D := by
  obtain ⟨-, h2, -⟩ := expandZip_spec hc hDn es m ⟨hm, hroot⟩
  rcases h2 u hu with h | ⟨-, -, h1, h3, h4⟩
  · rw [hi] at h; exact absurd h.symm hnew
  · refine ⟨?_, h1, h4⟩
    rw [hi] at h3
    rcases h3 with h3 | ⟨e, he, h3⟩
    · exact Or.inl (by injection h3)
    · exact Or.inr ⟨e, he, by injection h3⟩

/-- C120: when it succeeds, every entry is there with its contents: the decoded name leads to it from the directory of the package,
never leaving it on the way.  An entry with contents leads to a file that was not there before. -/
theorem C120_success {recode : Str → Option Str} (hc : Clean recode) {D : List Str} (hDn : Names D) (es : List Entry) {m : MemFS}
    (hm : m.Ok) (hroot : m.at D = some .dir) (hok : (expandZip recode (absText D.reverse) m es).2 = none) (e : Entry) (he : e ∈ es) :
    ∃ l, segs recode e.flags (comps e.name) = some l ∧ (∀ k, D <:+ (l.take k).foldl go D) ∧
      ((expandZip recode (absText D.reverse) m es).1.at (l.foldl go D) = some (.file e.data none) ∧ m.at (l.foldl go D) = none ∨
        (expandZip recode (absText D.reverse) m es).1.at (l.foldl go D) = some .dir ∧ e.data = []) :=
  (expandZip_spec hc hDn es m ⟨hm, hroot⟩).2.2 hok e he

/-- C120: an archive with an entry that leaves the directory of the package, even for part of the way, is refused. -/
theorem C120_refused {recode : Str → Option Str} (hc : Clean recode) {D : List Str} (hDn : Names D) (es : List Entry) {m : MemFS}
    (hm : m.Ok) (hroot : m.at D = some .dir) (e : Entry) (he : e ∈ es) (l : List Str) (hl : segs recode e.flags (comps e.name) = some l)
    (k : Nat) (hout : ¬ D <:+ (l.take k).foldl go D) : (expandZip recode (absText D.reverse) m es).2 ≠ none := by
  intro h
  obtain ⟨l', hl', hpre, -⟩ := C120_success hc hDn es hm hroot h e he
  rw [hl] at hl'
  injection hl' with hl'
  subst hl'
  exact hout (hpre k)

/-! ### Cases -/

/-- A recoding that keeps ASCII and fails for anything else. -/
def ascii (s : Str) : Option Str := if s.all (· < 128) then some s else none

theorem ascii_clean : Clean ascii := by
  intro s r h hs
  unfold ascii at h
  split at h
  · injection h with h; subst h; exact hs
  · cases h

/-- The directory `/p`, for a package. -/
def pkg0 : MemFS := MemFS.new.step (.makedirs [47, 112])

theorem pkg0_ok : pkg0.Ok := C105_ok ok_new _ (noDouble_check _ (by decide))

theorem pkg0_dir : pkg0.at [[112]] = some .dir := by decide +kernel

theorem names_p : Names [[112]] := by
  intro c hc
  simp only [List.mem_singleton] at hc
  subst hc
  exact ⟨by decide, by decide, by decide, by decide⟩

/-- `a/b`, with contents. -/
def entryAB : Entry := ⟨[97, 47, 98], 0, [1, 2]⟩

/-- `../x`. -/
def entryUp : Entry := ⟨[46, 46, 47, 120], 0, [3]⟩

/-- `../p/x`, which comes back. -/
def entryBack : Entry := ⟨[46, 46, 47, 112, 47, 120], 0, [3]⟩

/-- `/x`, an absolute name, whose first segment is empty. -/
def entryAbs : Entry := ⟨[47, 120], 0, [3]⟩

example : (expandZip ascii [47, 112] pkg0 [entryAB]).2 = none ∧
    (expandZip ascii [47, 112] pkg0 [entryAB]).1.at [[98], [97], [112]] = some (.file [1, 2] none) ∧
    (expandZip ascii [47, 112] pkg0 [entryAB]).1.at [[97], [112]] = some .dir := by decide +kernel
example : (expandZip ascii [47, 112] pkg0 [entryAB, entryUp]).2 = some .name ∧
    (expandZip ascii [47, 112] pkg0 [entryAB, entryUp]).1.at [[120]] = none := by decide +kernel
example : (expandZip ascii [47, 112] pkg0 [entryBack]).2 = some .name := by decide +kernel
example : (expandZip ascii [47, 112] pkg0 [entryAbs]).1.at [[120], [112]] = some (.file [3] none) ∧
    (expandZip ascii [47, 112] pkg0 [entryAbs]).1.at [[120]] = none := by decide +kernel
example : (expandZip ascii [47, 112] pkg0 [entryAB, entryAB]).2 = some .duplicate := by decide +kernel
example : (expandZip ascii (absText [[112]].reverse) pkg0 [entryAB, entryBack]).2 ≠ none :=
  C120_refused ascii_clean names_p _ pkg0_ok pkg0_dir entryBack (by simp) [[46, 46], [112], [120]] (by decide +kernel) 1 (by
    rintro ⟨w, h⟩
    have := congrArg List.length h
    simp [go] at this)

/-- C120 does not hold for names that the archive declares to be in UTF-8 when another flag of the entry is set: they are decoded a
second time.  The name `é` cannot be, and the archive is refused. -/
theorem C120_violation_flags :
    (expandZip ascii [47, 112] pkg0 [⟨[233], 0x808, [1]⟩]).2 = some .code ∧
    (expandZip ascii [47, 112] pkg0 [⟨[233], 0x800, [1]⟩]).2 = none := by decide +kernel

end Verif.Pkg
