import Verif.OUri.Expand
import Mathlib.Data.List.Sort
/-!
# C131, C132: reading and writing $expand and $select
-/
namespace Verif.OUri

open Verif.OData

/-! ## C131: reading -/

/-- C131: $expand is read as the nested dictionaries of its paths: a text is accepted exactly when it is a list of paths
of dotted names, separated by commas, without white space; and then a path can be followed through the dictionaries
exactly when it is the beginning of one of those. -/
theorem C131_expand (ids : Ids) (s : Str) :
    (∀ t, parseExpand ids s = some t → ∃ ps, OptText ids false ps s ∧ ∀ q, Has q t ↔ q ≠ [] ∧ ∃ p ∈ ps, q <+: p) ∧
    (∀ ps, OptText ids false ps s → ∃ t, parseExpand ids s = some t ∧ ∀ q, Has q t ↔ q ≠ [] ∧ ∃ p ∈ ps, q <+: p) := by
  have key : ∀ (ps : List (List Str)) (q : List Str), Has q (ps.foldl (fun t p => addPath p t) .leaf) ↔ q ≠ [] ∧ ∃ p ∈ ps, q <+: p := by
    intro ps q
    rw [has_foldl]
    exact ⟨fun h => h.resolve_left (not_has_leaf q), .inr⟩
  constructor
  · intro t h
    obtain ⟨ps, hp, rfl⟩ := (parse_iff (expand_ok ids) s t).mp h
    exact ⟨ps, hp, key ps⟩
  · intro ps hp
    exact ⟨_, (parse_iff (expand_ok ids) s _).mpr ⟨ps, hp, rfl⟩, key ps⟩

/-- C131 for $select: white space is allowed before every name and after every path, and the last name may be "*". -/
theorem C131_select (ids : Ids) (s : Str) :
    (∀ t, parseSelect ids s = some t → ∃ ps, OptText ids true ps s ∧ ∀ q, Has q t ↔ q ≠ [] ∧ ∃ p ∈ ps, q <+: p) ∧
    (∀ ps, OptText ids true ps s → ∃ t, parseSelect ids s = some t ∧ ∀ q, Has q t ↔ q ≠ [] ∧ ∃ p ∈ ps, q <+: p) := by
  have key : ∀ (ps : List (List Str)) (q : List Str), Has q (ps.foldl (fun t p => addPath p t) .leaf) ↔ q ≠ [] ∧ ∃ p ∈ ps, q <+: p := by
    intro ps q
    rw [has_foldl]
    exact ⟨fun h => h.resolve_left (not_has_leaf q), .inr⟩
  constructor
  · intro t h
    obtain ⟨ps, hp, rfl⟩ := (parse_iff (select_ok ids) s t).mp h
    exact ⟨ps, hp, key ps⟩
  · intro ps hp
    exact ⟨_, (parse_iff (select_ok ids) s _).mpr ⟨ps, hp, rfl⟩, key ps⟩

/-- An identifier table for examples. -/
def exIds : Ids where
  start := Uri.isAlpha
  cont := fun c => Uri.isAlnum c || c == 95
  start_cont := by intro c h; simp [Uri.isAlpha, Uri.isAlnum] at *; rcases h with h | h <;> simp [h]
  start_ascii := fun _ _ => rfl
  cont_ascii := fun _ _ => rfl

/-- "A/B,C" -/
example : OptText exIds false [[[65], [66]], [[67]]] [65, 47, 66, 44, 67] := by
  have ws : Gap false [] := ⟨fun c hc => by (cases hc), fun _ => rfl⟩
  have nm : ∀ c, Uri.isAlpha c = true → Dotted exIds [c] := fun c hc => .one hc (by simp)
  have p1 : PathText exIds false [[65], [66]] [65, 47, 66] :=
    .more (w := []) (n := [65]) (t := [66]) ws (nm 65 (by decide)) (.one (w := []) ws (.inl (nm 66 (by decide))))
  have p2 : PathText exIds false [[67]] [67] := .one (w := []) ws (.inl (nm 67 (by decide)))
  exact .more (t := [65, 47, 66]) (w := []) (u := [67]) p1 ws (.one (t := [67]) (w := []) p2 ws)
example : (parseExpand exIds [65, 47, 66, 44, 67]).isSome = true := by decide
/-- "A, B" is not accepted in $expand but is in $select. -/
example : (parseExpand exIds [65, 44, 32, 66]).isSome = false ∧ (parseSelect exIds [65, 44, 32, 66]).isSome = true := by decide

/-! ## C132: writing -/

/-- The dictionaries have one entry for each name: they are dictionaries. -/
inductive WF : Tree → Prop
  | mk {ks : List (Str × Tree)} : (ks.map Prod.fst).Nodup → (∀ e ∈ ks, WF e.2) → WF (.node ks)

/-- The names are dotted names; in $select also "*", with nothing below it. -/
inductive Named (ids : Ids) (sel : Bool) : Tree → Prop
  | mk {ks : List (Str × Tree)} : (∀ e ∈ ks, Dotted ids e.1 ∨ sel = true ∧ e.1 = star ∧ e.2 = .leaf) →
      (∀ e ∈ ks, Named ids sel e.2) → Named ids sel (.node ks)

theorem Tree.ind {P : Tree → Prop} (h : ∀ ks, (∀ e ∈ ks, P e.2) → P (.node ks)) : (t : Tree) → P t
  | .node ks => h ks fun e _he => Tree.ind h e.2
termination_by t => sizeOf t
decreasing_by
  have := List.sizeOf_lt_of_mem _he
  obtain ⟨a, b⟩ := e
  simp at *
  omega

theorem WF.leaf : WF .leaf := .mk (by simp) (by simp)
theorem Named.leaf {ids : Ids} {sel : Bool} : Named ids sel .leaf := .mk (by simp) (by simp)

theorem modify_keys (f : Tree → Tree) (n : Str) (ks : List (Str × Tree)) (h : (ks.map Prod.fst).Nodup) :
    ((modify f n ks).map Prod.fst).Nodup ∧ ∀ k, k ∈ (modify f n ks).map Prod.fst ↔ k ∈ ks.map Prod.fst ∨ k = n := by
  induction ks with
  | nil => simp [modify]
  | cons e r ih =>
    obtain ⟨a, b⟩ := e
    rw [List.map_cons, List.nodup_cons] at h
    obtain ⟨h1, h2⟩ := ih h.2
    unfold modify
    by_cases hk : a = n
    · rw [if_pos hk]
      refine ⟨by rw [List.map_cons, List.nodup_cons]; exact h, ?_⟩
      intro k
      simp only [List.map_cons, List.mem_cons]
      constructor
      · exact .inl
      · rintro (h | rfl)
        · exact h
        · exact .inl hk.symm
    · rw [if_neg hk]
      refine ⟨?_, ?_⟩
      · rw [List.map_cons, List.nodup_cons]
        refine ⟨?_, h1⟩
        intro hm
        rcases (h2 a).mp hm with hm | hm
        · exact h.1 hm
        · exact hk hm
      · intro k
        simp only [List.map_cons, List.mem_cons]
        rw [h2]
        simp only [or_assoc]

theorem WF.addPath {t : Tree} (h : WF t) : ∀ p, WF (addPath p t) := by
  intro p
  induction p generalizing t with
  | nil => simpa [Verif.OUri.addPath] using h
  | cons n p ih =>
    cases h with
    | @mk ks h1 h2 =>
      unfold Verif.OUri.addPath
      refine .mk (modify_keys _ n ks h1).1 ?_
      rintro ⟨k, v⟩ he
      rcases mem_modify he with ⟨h, -⟩ | ⟨rfl, ⟨v', h, rfl⟩ | ⟨-, rfl⟩⟩
      · exact h2 _ h
      · exact ih (h2 _ h)
      · exact ih WF.leaf

theorem Named.addPath {ids : Ids} {sel : Bool} {p : List Str} {u : Str} (hp : PathText ids sel p u) : ∀ {t : Tree},
    Named ids sel t → Named ids sel (addPath p t) := by
  induction hp with
  | @one w n hw hn =>
    intro t ht
    cases ht with
    | @mk ks h1 h2 =>
      unfold Verif.OUri.addPath
      refine .mk ?_ ?_
      · rintro ⟨k, v⟩ he
        rcases mem_modify he with ⟨h, -⟩ | ⟨rfl, ⟨v', h, rfl⟩ | ⟨-, rfl⟩⟩
        · exact h1 _ h
        · exact h1 _ h
        · rcases hn with hn | ⟨hs, rfl⟩
          · exact .inl hn
          · exact .inr ⟨hs, rfl, rfl⟩
      · rintro ⟨k, v⟩ he
        rcases mem_modify he with ⟨h, -⟩ | ⟨rfl, ⟨v', h, rfl⟩ | ⟨-, rfl⟩⟩
        · exact h2 _ h
        · exact h2 _ h
        · exact Named.leaf
  | @more w n t' p hw hn _ ih =>
    intro t ht
    cases ht with
    | @mk ks h1 h2 =>
      unfold Verif.OUri.addPath
      refine .mk ?_ ?_
      · rintro ⟨k, v⟩ he
        rcases mem_modify he with ⟨h, -⟩ | ⟨rfl, -⟩
        · exact h1 _ h
        · exact .inl hn
      · rintro ⟨k, v⟩ he
        rcases mem_modify he with ⟨h, -⟩ | ⟨rfl, ⟨v', h, rfl⟩ | ⟨-, rfl⟩⟩
        · exact h2 _ h
        · exact ih (h2 _ h)
        · exact ih Named.leaf

mutual
/-- The paths that cannot be followed further. -/
def Tree.leaves : Tree → List (List Str)
  | .node ks => kidsLeaves ks
def kidsLeaves : List (Str × Tree) → List (List Str)
  | [] => []
  | (k, .node []) :: r => [k] :: kidsLeaves r
  | (k, .node (e :: es)) :: r => (Tree.leaves (.node (e :: es))).map (fun x => k :: x) ++ kidsLeaves r
end

/-- The paths of one entry. -/
def entryLeaves (e : Str × Tree) : List (List Str) :=
  match e.2 with
  | .node [] => [[e.1]]
  | .node (a :: as) => (Tree.leaves (.node (a :: as))).map (e.1 :: ·)

theorem kidsLeaves_eq (ks : List (Str × Tree)) : kidsLeaves ks = ks.flatMap entryLeaves := by
  induction ks with
  | nil => simp [kidsLeaves]
  | cons e r ih =>
    obtain ⟨k, ⟨vs⟩⟩ := e
    cases vs with
    | nil => simp only [kidsLeaves, List.flatMap_cons, ih, entryLeaves, List.singleton_append]
    | cons a as => simp only [kidsLeaves, List.flatMap_cons, ih, entryLeaves]

/-- The texts of one entry. -/
def entryList (e : Str × Tree) : List Str :=
  match e.2 with
  | .node [] => [e.1]
  | .node (a :: as) => (Tree.list (.node (a :: as))).map (fun x => e.1 ++ 47 :: x)

theorem kidsList_eq (ks : List (Str × Tree)) : kidsList ks = ks.flatMap entryList := by
  induction ks with
  | nil => simp [kidsList]
  | cons e r ih =>
    obtain ⟨k, ⟨vs⟩⟩ := e
    cases vs with
    | nil => simp only [kidsList, List.flatMap_cons, ih, entryList, List.singleton_append]
    | cons a as => simp only [kidsList, List.flatMap_cons, ih, entryList]

theorem leaves_ne_nil (t : Tree) : ∀ p ∈ t.leaves, p ≠ [] := by
  obtain ⟨ks⟩ := t
  intro p hp
  unfold Tree.leaves at hp
  rw [kidsLeaves_eq, List.mem_flatMap] at hp
  obtain ⟨⟨k, ⟨vs⟩⟩, -, hp⟩ := hp
  cases vs with
  | nil => simp [entryLeaves] at hp; simp [hp]
  | cons a as => simp [entryLeaves] at hp; obtain ⟨x, -, rfl⟩ := hp; simp

theorem list_eq (t : Tree) : t.list = t.leaves.map (Uri.joinWith 47) := by
  induction t using Tree.ind with
  | h ks ih =>
    unfold Tree.list Tree.leaves
    rw [kidsList_eq, kidsLeaves_eq, List.map_flatMap]
    suffices ∀ l : List (Str × Tree), (∀ e ∈ l, e ∈ ks) → l.flatMap entryList = l.flatMap fun e => (entryLeaves e).map (Uri.joinWith 47) from
      this ks (fun _ h => h)
    intro l
    induction l with
    | nil => intro _; rfl
    | cons e r ih' =>
      intro hm
      rw [List.flatMap_cons, List.flatMap_cons, ih' (fun e he => hm e (by simp [he]))]
      congr 1
      have := ih e (hm e (by simp))
      obtain ⟨k, ⟨vs⟩⟩ := e
      cases vs with
      | nil => rfl
      | cons a as =>
        simp only [entryList, entryLeaves, List.map_map] at this ⊢
        rw [this, List.map_map]
        apply List.map_congr_left
        intro p hp
        have hne := leaves_ne_nil _ p hp
        cases p with
        | nil => exact absurd rfl hne
        | cons x p => rfl

theorem leaves_nonempty (ks : List (Str × Tree)) (h : ks ≠ []) : (Tree.node ks).leaves ≠ [] := by
  suffices ∀ t : Tree, t.kids ≠ [] → t.leaves ≠ [] from this (.node ks) h
  clear h ks
  intro t
  induction t using Tree.ind with
  | h ks ih =>
    intro h
    cases ks with
    | nil => exact absurd rfl h
    | cons e r =>
      have ih := ih e (by simp)
      unfold Tree.leaves
      rw [kidsLeaves_eq, List.flatMap_cons]
      intro hnil
      rw [List.append_eq_nil_iff] at hnil
      have h1 := hnil.1
      obtain ⟨k, ⟨vs⟩⟩ := e
      cases vs with
      | nil => simp [entryLeaves] at h1
      | cons a as =>
        simp only [entryLeaves, List.map_eq_nil_iff] at h1
        exact ih (by simp [Tree.kids]) h1

/-- A path can be followed exactly when it begins one of the full paths. -/
theorem has_leaves (t : Tree) : ∀ q, Has q t ↔ q ≠ [] ∧ ∃ p ∈ t.leaves, q <+: p := by
  induction t using Tree.ind with
  | h ks ih =>
    intro q
    unfold Tree.leaves
    rw [kidsLeaves_eq]
    constructor
    · intro h
      refine ⟨has_ne_nil h, ?_⟩
      cases h with
      | @one n _ v hm =>
        obtain ⟨vs⟩ := v
        cases vs with
        | nil => exact ⟨[n], List.mem_flatMap.mpr ⟨_, hm, by simp [entryLeaves]⟩, by simp⟩
        | cons a as =>
          obtain ⟨p, hp⟩ := List.exists_mem_of_ne_nil _ (leaves_nonempty (a :: as) (by simp))
          exact ⟨n :: p, List.mem_flatMap.mpr ⟨_, hm, by simpa [entryLeaves] using hp⟩, by simp⟩
      | @more n q' _ v hm hq =>
        obtain ⟨-, p, hp, hpre⟩ := (ih _ hm q').mp hq
        obtain ⟨vs⟩ := v
        cases vs with
        | nil => simp [Tree.leaves, kidsLeaves] at hp
        | cons a as => exact ⟨n :: p, List.mem_flatMap.mpr ⟨_, hm, by simpa [entryLeaves] using hp⟩, by simpa using hpre⟩
    · rintro ⟨hne, p, hp, hpre⟩
      rw [List.mem_flatMap] at hp
      obtain ⟨⟨k, v⟩, hm, hp⟩ := hp
      have ih := ih _ hm
      obtain ⟨vs⟩ := v
      cases q with
      | nil => exact absurd rfl hne
      | cons n q =>
        cases vs with
        | nil =>
          simp only [entryLeaves, List.mem_singleton] at hp
          subst hp
          rw [List.cons_prefix_cons, List.prefix_nil] at hpre
          obtain ⟨rfl, rfl⟩ := hpre
          exact .one hm
        | cons a as =>
          simp only [entryLeaves, List.mem_map] at hp
          obtain ⟨p', hp', rfl⟩ := hp
          rw [List.cons_prefix_cons] at hpre
          obtain ⟨rfl, hpre⟩ := hpre
          cases q with
          | nil => exact .one hm
          | cons x q => exact .more hm ((ih (x :: q)).mpr ⟨by simp, p', hp', hpre⟩)

/-- The text of a full path is one the parser reads as that path. -/
theorem leaves_text {ids : Ids} {sel : Bool} (t : Tree) : Named ids sel t → ∀ p ∈ t.leaves, PathText ids sel p (Uri.joinWith 47 p) := by
  have ws : Gap sel [] := ⟨fun c hc => by (cases hc), fun _ => rfl⟩
  induction t using Tree.ind with
  | h ks ih =>
    intro hn p hp
    cases hn with
    | mk h1 h2 =>
      unfold Tree.leaves at hp
      rw [kidsLeaves_eq, List.mem_flatMap] at hp
      obtain ⟨⟨k, v⟩, hm, hp⟩ := hp
      have h1 := h1 _ hm
      have ih := ih _ hm (h2 _ hm)
      obtain ⟨vs⟩ := v
      cases vs with
      | nil =>
        simp only [entryLeaves, List.mem_singleton] at hp
        subst hp
        exact .one (w := []) ws (h1.imp id (fun h => ⟨h.1, h.2.1⟩))
      | cons a as =>
        simp only [entryLeaves, List.mem_map] at hp
        obtain ⟨p', hp', rfl⟩ := hp
        have hd : Dotted ids k := by
          rcases h1 with h | ⟨-, -, h⟩
          · exact h
          · cases h
        have := PathText.more (w := []) ws hd (ih p' hp')
        have hne := leaves_ne_nil _ p' hp'
        cases p' with
        | nil => exact absurd rfl hne
        | cons x p' => exact this

theorem optText_join {ids : Ids} {sel : Bool} (ps : List (List Str)) (hne : ps ≠ [])
    (h : ∀ p ∈ ps, PathText ids sel p (Uri.joinWith 47 p)) :
    OptText ids sel ps (Uri.joinWith 44 (ps.map (Uri.joinWith 47))) := by
  have ws : Gap sel [] := ⟨fun c hc => by (cases hc), fun _ => rfl⟩
  induction ps with
  | nil => exact absurd rfl hne
  | cons p ps ih =>
    cases ps with
    | nil =>
      have := OptText.one (h p (by simp)) ws
      rw [List.append_nil] at this
      exact this
    | cons p' ps =>
      exact .more (w := []) (h p (by simp)) ws (ih (by simp) (fun q hq => h q (by simp [hq])))

/-- Sorting texts of paths is rearranging the paths. -/
theorem sort_paths (ls : List (List Str)) : ∃ ps : List (List Str), ps.Perm ls ∧
    (ls.map (Uri.joinWith 47)).mergeSort strLe = ps.map (Uri.joinWith 47) := by
  have hp := List.mergeSort_perm (ls.map (Uri.joinWith 47)) strLe
  generalize (ls.map (Uri.joinWith 47)).mergeSort strLe = m at hp
  have := (congrFun (congrFun (List.eq_map_comp_perm (Uri.joinWith 47)) m) ls).symm ▸ hp
  obtain ⟨ps, h1, h2⟩ := this
  exact ⟨ps, h2, h1⟩

/-- The dictionaries say the same: the same paths can be followed. -/
def Same (t t' : Tree) : Prop := ∀ q, Has q t ↔ Has q t'

theorem format_text {ids : Ids} {sel : Bool} {t : Tree} (hn : Named ids sel t) (hk : t.kids ≠ []) :
    ∃ ps, OptText ids sel ps (formatExpand t) ∧ ps.Perm t.leaves := by
  obtain ⟨ps, hp, he⟩ := sort_paths t.leaves
  have hne : t.leaves ≠ [] := by obtain ⟨ks⟩ := t; exact leaves_nonempty ks hk
  refine ⟨ps, ?_, hp⟩
  unfold formatExpand
  rw [list_eq, he]
  apply optText_join
  · intro h; rw [h] at hp; exact hne hp.symm.eq_nil
  · intro p hp'
    exact leaves_text t hn p (hp.mem_iff.mp hp')

theorem round_trip {ids : Ids} {sel : Bool} {item : Str → Option (Str × Str)} {gap : Str → Str}
    (ok : ItemOk ids sel item gap) {t : Tree} (hn : Named ids sel t) (hk : t.kids ≠ []) :
    ∃ t', optLoop item gap ((formatExpand t).length + 1) .leaf (formatExpand t) = some t' ∧ Same t' t := by
  obtain ⟨ps, h1, h2⟩ := format_text hn hk
  refine ⟨_, (parse_iff ok _ _).mpr ⟨ps, h1, rfl⟩, ?_⟩
  intro q
  rw [has_foldl, has_leaves t q]
  constructor
  · rintro (h | ⟨h, p, hp, hq⟩)
    · exact absurd h (not_has_leaf q)
    · exact ⟨h, p, h2.mem_iff.mp hp, hq⟩
  · rintro ⟨h, p, hp, hq⟩
    exact .inr ⟨h, p, h2.mem_iff.mpr hp, hq⟩

/-- C132: what `format_expand` writes, $expand reads back as dictionaries with the same paths. -/
theorem C132_expand_round_trip (ids : Ids) (t : Tree) (hn : Named ids false t) (hk : t.kids ≠ []) :
    ∃ t', parseExpand ids (formatExpand t) = some t' ∧ Same t' t := round_trip (expand_ok ids) hn hk

/-- C132: what `format_select` writes, $select reads back as dictionaries with the same paths. -/
theorem C132_select_round_trip (ids : Ids) (t : Tree) (hn : Named ids true t) (hk : t.kids ≠ []) :
    ∃ t', parseSelect ids (formatExpand t) = some t' ∧ Same t' t := round_trip (select_ok ids) hn hk

theorem has_one {n : Str} {ks : List (Str × Tree)} : Has [n] (.node ks) ↔ ∃ v, (n, v) ∈ ks := by
  constructor
  · intro h
    cases h with
    | one h => exact ⟨_, h⟩
    | more h _ => exact ⟨_, h⟩
  · rintro ⟨v, h⟩; exact .one h

theorem unique_key {ks : List (Str × Tree)} (h : (ks.map Prod.fst).Nodup) {n : Str} {v v' : Tree} (h1 : (n, v) ∈ ks)
    (h2 : (n, v') ∈ ks) : v = v' := by
  induction ks with
  | nil => cases h1
  | cons e r ih =>
    rw [List.map_cons, List.nodup_cons] at h
    rcases List.mem_cons.mp h1 with h1 | h1 <;> rcases List.mem_cons.mp h2 with h2 | h2
    · rw [← h1] at h2; exact (Prod.mk.inj h2).2.symm
    · exact absurd (List.mem_map.mpr ⟨_, h2, by rw [← h1]⟩) h.1
    · exact absurd (List.mem_map.mpr ⟨_, h1, by rw [← h2]⟩) h.1
    · exact ih h.2 h1 h2

/-- In dictionaries the full paths are those that cannot be extended. -/
theorem mem_leaves (t : Tree) : WF t → ∀ p, p ∈ t.leaves ↔ Has p t ∧ ∀ n, ¬ Has (p ++ [n]) t := by
  induction t using Tree.ind with
  | h ks ih =>
    intro hw p
    cases hw with
    | mk hnd hsub =>
      constructor
      · intro hp
        refine ⟨(has_leaves _ p).mpr ⟨leaves_ne_nil _ p hp, p, hp, List.prefix_rfl⟩, ?_⟩
        intro n hh
        unfold Tree.leaves at hp
        rw [kidsLeaves_eq, List.mem_flatMap] at hp
        obtain ⟨⟨k, v⟩, hm, hp⟩ := hp
        have ih := ih _ hm (hsub _ hm)
        obtain ⟨vs⟩ := v
        cases vs with
        | nil =>
          simp only [entryLeaves, List.mem_singleton] at hp
          subst hp
          cases hh with
          | more hm' hh =>
            have := unique_key hnd hm hm'
            subst this
            exact not_has_leaf _ hh
        | cons a as =>
          simp only [entryLeaves, List.mem_map] at hp
          obtain ⟨p', hp', rfl⟩ := hp
          have hne := leaves_ne_nil _ p' hp'
          obtain ⟨-, h2⟩ := (ih p').mp hp'
          cases hx : p' ++ [n] with
          | nil => simp at hx
          | cons y ys =>
            rw [List.cons_append, hx] at hh
            cases hh with
            | more hm' hh =>
              have := unique_key hnd hm hm'
              subst this
              rw [← hx] at hh
              exact h2 n hh
      · rintro ⟨h1, h2⟩
        obtain ⟨-, p', hp', hpre⟩ := (has_leaves _ p).mp h1
        obtain ⟨r, rfl⟩ := hpre
        cases r with
        | nil => simpa using hp'
        | cons n r =>
          exact absurd ((has_leaves _ (p ++ [n])).mpr ⟨by simp, _, hp', by simp⟩) (h2 n)

theorem leaves_nodup (t : Tree) : WF t → t.leaves.Nodup := by
  induction t using Tree.ind with
  | h ks ih =>
    intro hw
    cases hw with
    | mk hnd hsub =>
      unfold Tree.leaves
      rw [kidsLeaves_eq]
      have hhead : ∀ (e : Str × Tree) (p : List Str), p ∈ entryLeaves e → p.head? = some e.1 := by
        rintro ⟨k, ⟨vs⟩⟩ p hp
        cases vs with
        | nil => simp [entryLeaves] at hp; simp [hp]
        | cons a as => simp [entryLeaves] at hp; obtain ⟨x, -, rfl⟩ := hp; rfl
      induction ks with
      | nil => simp
      | cons e r ih' =>
        rw [List.map_cons, List.nodup_cons] at hnd
        rw [List.flatMap_cons, List.nodup_append]
        refine ⟨?_, ih' (fun e he => ih e (by simp [he])) hnd.2 (fun e he => hsub e (by simp [he])), ?_⟩
        · have ih := ih e (by simp) (hsub e (by simp))
          obtain ⟨k, ⟨vs⟩⟩ := e
          cases vs with
          | nil => simp [entryLeaves]
          | cons a as =>
            simp only [entryLeaves]
            exact ih.map (fun x y h => by simpa using h)
        · intro p hp q hq hpq
          subst hpq
          rw [List.mem_flatMap] at hq
          obtain ⟨e', he', hq⟩ := hq
          have h1 := hhead e p hp
          have h2 := hhead e' p hq
          rw [h1] at h2
          exact hnd.1 (List.mem_map.mpr ⟨e', he', by simpa using h2.symm⟩)

theorem strLe_trans (a b c : Str) : strLe a b = true → strLe b c = true → strLe a c = true := by
  simp only [strLe, decide_eq_true_eq]; exact List.le_trans
theorem strLe_total (a b : Str) : (strLe a b || strLe b a) = true := by
  simp only [strLe, Bool.or_eq_true, decide_eq_true_eq]; exact List.le_total a b

/-- C132: the text is canonical: dictionaries in which the same paths can be followed are written alike, whatever
the order in which their entries were made. -/
theorem C132_canonical (t t' : Tree) (h : WF t) (h' : WF t') (hs : Same t t') : formatExpand t = formatExpand t' := by
  have hp : t.leaves.Perm t'.leaves := by
    rw [List.perm_ext_iff_of_nodup (leaves_nodup t h) (leaves_nodup t' h')]
    intro p
    rw [mem_leaves t h, mem_leaves t' h', hs p]
    exact and_congr_right fun _ => forall_congr' fun n => not_congr (hs _)
  unfold formatExpand
  congr 1
  rw [list_eq, list_eq]
  have hm := hp.map (Uri.joinWith 47)
  have p1 := List.mergeSort_perm (t.leaves.map (Uri.joinWith 47)) strLe
  have p2 := List.mergeSort_perm (t'.leaves.map (Uri.joinWith 47)) strLe
  have s1 := List.pairwise_mergeSort strLe_trans strLe_total (t.leaves.map (Uri.joinWith 47))
  have s2 := List.pairwise_mergeSort strLe_trans strLe_total (t'.leaves.map (Uri.joinWith 47))
  exact List.Perm.eq_of_pairwise (fun a b _ _ h1 h2 => by
    simp only [strLe, decide_eq_true_eq] at h1 h2; exact List.le_antisymm h1 h2) s1 s2 ((p1.trans hm).trans p2.symm)

theorem parse_wf {ids : Ids} {sel : Bool} {ps : List (List Str)} {s : Str} (h : OptText ids sel ps s) : ∀ t : Tree,
    WF t → Named ids sel t → WF (ps.foldl (fun t p => addPath p t) t) ∧ Named ids sel (ps.foldl (fun t p => addPath p t) t) ∧
      (ps.foldl (fun t p => addPath p t) t).kids ≠ [] := by
  have kid : ∀ {p : List Str} {u : Str} (t : Tree), PathText ids sel p u → (addPath p t).kids ≠ [] := by
    intro p u t hp
    have hne : p ≠ [] := by cases hp <;> simp
    have := (has_addPath p t p).mpr (.inr ⟨hne, List.prefix_rfl⟩)
    intro hk
    cases ht : addPath p t with
    | node ks =>
      rw [ht] at hk this
      simp only [Tree.kids] at hk
      subst hk
      exact not_has_leaf _ this
  induction h with
  | one hp _ => intro t hw hn; exact ⟨hw.addPath _, hn.addPath hp, kid t hp⟩
  | more hp _ _ ih => intro t hw hn; exact ih _ (hw.addPath _) (hn.addPath hp)

/-- C132: an option that was read can be written and read again: the dictionaries have the same paths, and the text is the
same from then on. -/
theorem C132_normal_form (ids : Ids) (s : Str) :
    (∀ t, parseExpand ids s = some t → WF t ∧ Named ids false t ∧ ∃ t', parseExpand ids (formatExpand t) = some t' ∧ Same t' t ∧
      formatExpand t' = formatExpand t) ∧
    (∀ t, parseSelect ids s = some t → WF t ∧ Named ids true t ∧ ∃ t', parseSelect ids (formatExpand t) = some t' ∧ Same t' t ∧
      formatExpand t' = formatExpand t) := by
  constructor
  · intro t h
    obtain ⟨ps, hp, rfl⟩ := (parse_iff (expand_ok ids) s t).mp h
    obtain ⟨h1, h2, h3⟩ := parse_wf hp .leaf WF.leaf Named.leaf
    obtain ⟨t', k1, k2⟩ := C132_expand_round_trip ids _ h2 h3
    obtain ⟨ps', hp', rfl⟩ := (parse_iff (expand_ok ids) _ t').mp k1
    exact ⟨h1, h2, _, k1, k2, C132_canonical _ _ (parse_wf hp' .leaf WF.leaf Named.leaf).1 h1 k2⟩
  · intro t h
    obtain ⟨ps, hp, rfl⟩ := (parse_iff (select_ok ids) s t).mp h
    obtain ⟨h1, h2, h3⟩ := parse_wf hp .leaf WF.leaf Named.leaf
    obtain ⟨t', k1, k2⟩ := C132_select_round_trip ids _ h2 h3
    obtain ⟨ps', hp', rfl⟩ := (parse_iff (select_ok ids) _ t').mp k1
    exact ⟨h1, h2, _, k1, k2, C132_canonical _ _ (parse_wf hp' .leaf WF.leaf Named.leaf).1 h1 k2⟩

/-- {"B": None, "A": {"C": None}} is written A/C,B. -/
example : formatExpand (.node [([66], .leaf), ([65], .node [([67], .leaf)])]) = [65, 47, 67, 44, 66] := by
  simp [formatExpand, Tree.list, kidsList, Tree.leaf, List.mergeSort]
  simp [List.merge, strLe, Uri.joinWith]
  decide +kernel
/-- The empty dictionary is written as the empty text, which cannot be read. -/
theorem C132_empty_violation (ids : Ids) : formatExpand .leaf = [] ∧ parseExpand ids [] = none ∧ parseSelect ids [] = none := by
  refine ⟨by decide +kernel, ?_, ?_⟩
  · simp [parseExpand, optLoop, pathLoop, parseIdent, identLoop]
  · simp [parseSelect, optLoop, pathLoop, starOrIdent, wsp]

end Verif.OUri
