import Verif.Pkg.Export
import Verif.Pkg.C120

/-!
# C121: a package that is exported and read again is the same
-/
namespace Verif.Pkg
open Verif.Vfs

/-- C121: the archive of a package, expanded into an empty directory, gives a copy of the package.  Everything is there, with its
contents, except what is ignored (and what is inside it), and nothing else; outside that directory, nothing changes. -/
theorem C121_round_trip {recode : Str → Option Str} (hp : Plain7 recode) {m m2 : MemFS} (hm : m.Ok) (hT : m.Tree) (ign : Str → Bool)
    {S D : List Str} (hS : Names S) (hD : Names D) (hdir : m.at S = some .dir)
    (hclosed : ∀ u d s, Names u → m.at (u ++ S) = some (.file d s) → s = none)
    (hm2 : m2.Ok) (hdir2 : m2.at D = some .dir) (hempty : ∀ q, Names q → D <:+ q → q ≠ D → m2.at q = none) :
    ∃ m3, expandZip recode (absText D.reverse) m2 (exportZip m ign (absText S.reverse)) = (m3, none) ∧ m3.Ok ∧
      (∀ q, Names q → ¬ D <:+ q → m3.at q = m2.at q) ∧
      ∀ u, Names u → m3.at (u ++ D) = if u.all (fun c => !ign c) then m.at (u ++ S) else none := by
  obtain ⟨l, hl, hnd, hmem⟩ := list_place hm hS hdir
  have hself : ∀ f, ¬ (f :: D) <:+ D := by
    intro f h
    have := h.length_le
    simp at this
    omega
  obtain ⟨m3, e3, i3, o3, c3⟩ := copy_kids (recode := recode) ign hS hD (copies hp hm hT ign hS hD hclosed (depth m)) [] (fun c hc => nomatch hc)
    (l.filter (fun f => !ign f)) (hnd.filter _)
    (by
      intro f hf
      have := List.mem_filter.1 hf
      have h2 := (hmem f).1 this.1
      exact ⟨h2.1, by simpa using this.2, h2.2⟩) m2 ⟨hm2, hdir2⟩
    (by
      intro s hs
      rw [List.suffix_nil.1 hs]; exact hdir2)
    (by
      intro f _ q hq h
      refine hempty q hq ((List.suffix_cons f D).trans h) ?_
      rintro rfl
      exact hself f h)
    (by
      intro f hf u hu h
      have hfn := ((hmem f).1 (List.mem_filter.1 hf).1).1
      have := depth_enough m (u ++ ([f] ++ S)) (names_append hu (names_append (by
        intro c hc
        rw [List.mem_singleton] at hc
        subst hc; exact hfn) hS)) h
      simp at this
      omega)
  refine ⟨m3, ?_, i3.ok, ?_, ?_⟩
  · unfold exportZip
    rw [hl]
    simpa [zbase] using e3
  · intro q hq h
    exact o3 q hq (fun f _ h2 => h ((List.suffix_cons f D).trans h2))
  · intro u hu
    rcases List.eq_nil_or_concat u with rfl | ⟨w, f, rfl⟩
    · rw [List.nil_append, o3 D hD (fun f _ => hself f), hdir2]
      simpa using hdir.symm
    · rw [List.concat_eq_append] at hu ⊢
      have hf : IsName f := hu f (by simp)
      have hw : Names w := fun c hc => hu c (by simp [hc])
      have hq : Names (w ++ (f :: D)) := names_append hw (by
        intro c hc
        cases hc with
        | head => exact hf
        | tail _ hc => exact hD c hc)
      have hqS : Names (w ++ (f :: S)) := names_append hw (by
        intro c hc
        cases hc with
        | head => exact hf
        | tail _ hc => exact hS c hc)
      have hcat : ∀ t, w ++ [f] ++ t = w ++ (f :: t) := by intro t; simp
      rw [hcat, hcat]
      by_cases hfl : f ∈ l.filter (fun f => !ign f)
      · have h := c3 f hfl w hw
        have hfi : ign f = false := by simpa using (List.mem_filter.1 hfl).2
        simp only [List.cons_append, List.nil_append, vis] at h
        rw [h]
        simp [hfi]
      · rw [o3 _ hq (by
          intro g hg h
          have := suffix_same h (List.suffix_append w (f :: D)) (by simp)
          simp only [List.cons_append, List.nil_append, List.cons.injEq, and_true] at this
          exact hfl (this ▸ hg)),
          hempty _ hq ((List.suffix_cons f D).trans (List.suffix_append w _)) (by
            intro h
            have := congrArg List.length h
            simp at this
            omega)]
        by_cases hfi : ign f = true
        · simp [hfi]
        · have hnone : m.at (w ++ (f :: S)) = none := by
            by_contra hc
            have hc' : (m.at (w ++ (f :: S))).isSome = true := by
              cases h : m.at (w ++ (f :: S)) with
              | none => exact absurd h hc
              | some i => rfl
            have hfS : (m.at (f :: S)).isSome = true := by
              by_cases hw0 : w = []
              · subst hw0; exact hc'
              · rw [tree_up hT w _ hqS hw0 hc']; rfl
            exact hfl (List.mem_filter.2 ⟨(hmem f).2 ⟨hf, hfS⟩, by simpa using hfi⟩)
          rw [hnone]; simp

/-! ### A case -/

/-- The names that start with a full stop are ignored, imscpv1p2.py:29, 563-573. -/
def ignDot (s : Str) : Bool := s.head? == some 46

/-- The directory `/p/a` has a file `b` and one `.h`; the archive has an entry for the directory and one for `b`. -/
def ops1 : List FsOp :=
  [FsOp.makedirs [47, 112, 47, 97], .openPath [47, 112, 47, 97, 47, 98] (.w false), .write [47, 112, 47, 97, 47, 98] [1, 2],
    .close [47, 112, 47, 97, 47, 98], .openPath [47, 112, 47, 97, 47, 46, 104] (.w false), .close [47, 112, 47, 97, 47, 46, 104]]

/-- What they lead to. -/
def pkg1 : MemFS := ops1.foldl MemFS.step MemFS.new

example : (exportZip pkg1 ignDot [47, 112]).map (fun e => (e.name, e.data)) = [([97, 47], []), ([97, 47, 98], [1, 2])] := by
  decide +kernel
example : pkg1.at [[112]] = some .dir := by decide +kernel
example : (expandZip ascii [47, 112] pkg0 (exportZip pkg1 ignDot [47, 112])).1.at [[98], [97], [112]] = some (.file [1, 2] none) ∧
    (expandZip ascii [47, 112] pkg0 (exportZip pkg1 ignDot [47, 112])).1.at [[46, 104], [97], [112]] = none := by decide +kernel
example : Plain7 ascii := by
  intro s h
  unfold ascii
  rw [if_pos]
  rw [List.all_eq_true]
  intro c hc
  simpa using h c hc

theorem noFile_new (t : List Str) : ¬ MemFS.new.FileAt t := by
  rintro ⟨d, s, h⟩; cases h

theorem pkg1_tree : pkg1.Tree := by
  refine C105_tree_partial ops1 ⟨noDouble_check _ (by decide), fun v _ => noFile_new v, noDouble_check _ (by decide), ⟨by decide +kernel, by decide +kernel⟩,
    noDouble_check _ (by decide), trivial, noDouble_check _ (by decide), trivial, noDouble_check _ (by decide),
    ⟨by decide +kernel, by decide +kernel⟩, noDouble_check _ (by decide), trivial, trivial⟩

theorem ok_all (ops : List FsOp) (m : MemFS) (hm : m.Ok) (h : ∀ o ∈ ops, NoDouble o.path) : (ops.foldl MemFS.step m).Ok := by
  induction ops generalizing m with
  | nil => exact hm
  | cons o r ih => exact ih _ (C105_ok hm o (h o (.head _))) (fun p hp => h p (.tail _ hp))

theorem pkg1_ok : pkg1.Ok := by
  refine ok_all ops1 _ ok_new (fun o ho => noDouble_check _ ?_)
  have hall : ops1.all (fun o => (List.zip o.path o.path.tail).contains (47, 47) == false) = true := by decide +kernel
  simpa using List.all_eq_true.1 hall o ho

theorem pkg1_closed (u : List Str) (d : List Nat) (s : Option Vfs.Stream) (h : pkg1.at u = some (.file d s)) : s = none := by
  have hall : ∀ e ∈ pkg1.items, e.2.isOpen = false := by decide +kernel
  unfold MemFS.at dget at h
  rw [Option.map_eq_some_iff] at h
  obtain ⟨e, he, h2⟩ := h
  have := hall e (List.mem_of_find?_eq_some he)
  rw [h2] at this
  cases s with
  | none => rfl
  | some s => cases this

theorem pkg0_empty (q : List Str) (hq : Names q) (h : [[112]] <:+ q) (hne : q ≠ [[112]]) : pkg0.at q = none := by
  have hall : pkg0.items.map (·.1) = [[47], [47, 112]] := by decide +kernel
  cases hc : pkg0.at q with
  | none => rfl
  | some i =>
    exfalso
    unfold MemFS.at dget at hc
    rw [Option.map_eq_some_iff] at hc
    obtain ⟨e, he, -⟩ := hc
    have h1 := List.find?_some he
    rw [beq_iff_eq] at h1
    have h2 : e.1 ∈ pkg0.items.map (·.1) := List.mem_map.2 ⟨e, List.mem_of_find?_eq_some he, rfl⟩
    rw [hall, h1] at h2
    simp only [List.mem_cons, List.not_mem_nil, or_false] at h2
    rcases h2 with h2 | h2
    · have := (absText_eq_iff (t := []) (fun c (hc : c ∈ []) => nomatch hc) hq).1 (show absText q.reverse = absText ([] : List Str).reverse from h2)
      subst this
      exact absurd (List.suffix_nil.1 h) (by simp)
    · exact hne ((absText_eq_iff names_p hq).1 h2)

/-- The hypotheses of C121 hold for the two packages. -/
example : ∃ m3, expandZip ascii (absText [[112]].reverse) pkg0 (exportZip pkg1 ignDot (absText [[112]].reverse)) = (m3, none) ∧
    m3.at [[98], [97], [112]] = some (.file [1, 2] none) := by
  obtain ⟨m3, h1, -, -, h4⟩ := C121_round_trip (recode := ascii) (by
    intro s h
    unfold ascii
    rw [if_pos]
    rw [List.all_eq_true]
    intro c hc
    simpa using h c hc) pkg1_ok pkg1_tree ignDot names_p names_p (by decide +kernel)
    (fun u d s _ h => pkg1_closed _ d s h) pkg0_ok pkg0_dir pkg0_empty
  refine ⟨m3, h1, ?_⟩
  have := h4 [[98], [97]] (by
    intro c hc
    simp only [List.mem_cons, List.not_mem_nil, or_false] at hc
    rcases hc with rfl | rfl <;> exact ⟨by decide, by decide, by decide, by decide⟩)
  rw [if_pos (by decide)] at this
  rw [show [[98], [97], [112]] = [[98], [97]] ++ ([[112]] : List Str) from rfl, this]
  decide +kernel

end Verif.Pkg
