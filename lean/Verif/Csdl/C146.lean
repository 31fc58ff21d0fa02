import Verif.Csdl.Names
/-!
# C146: theorems about named scopes
-/
namespace Verif.Csdl

/-! ## Specification -/

/-- A compound name: the name of a value in the scope, or that of a scope in it, a dot and a compound name in that scope. -/
inductive Path : List Val → Str → Val → Prop
  | here {es : List Val} {v : Val} : v ∈ es → Path es v.name v
  | deep {es : List Val} {u v : Val} {k : Str} : u ∈ es → u.isTable = true → Path u.entries k v → Path es (u.name ++ 46 :: k) v

/-- Names that cannot be mistaken for one another: neither is the other, or the other up to one of its dots. -/
def Apart (a b : Str) : Prop := a ≠ b ∧ ¬ (a ++ [46]) <+: b ∧ ¬ (b ++ [46]) <+: a

/-- In every scope the names are apart. -/
inductive WF : List Val → Prop
  | mk {es : List Val} : es.Pairwise (fun u v => Apart u.name v.name) → (∀ v ∈ es, v.isTable = true → WF v.entries) → WF es

/-- Declaring or undeclaring a value in a scope or in a scope inside it. -/
inductive Change : List Val → List Val → Prop
  | declare {es es' : List Val} {v : Val} : (v.isTable = true → WF v.entries) → declare es v = .ok es' → Change es es'
  | undeclare {es es' : List Val} {v : Val} : undeclare es v = some es' → Change es es'
  | inside {a b sub sub' : List Val} {n : Str} {i : Nat} : Change sub sub' → Change (a ++ .mk n i true sub :: b) (a ++ .mk n i true sub' :: b)

/-- The scopes that can be built. -/
inductive Built : List Val → Prop
  | empty : Built []
  | change {es es' : List Val} : Built es → Change es es' → Built es'

/-! ## Proofs -/

theorem Apart.symm {a b : Str} (h : Apart a b) : Apart b a := ⟨h.1.symm, h.2.2, h.2.1⟩

theorem apart_or_eq {es : List Val} (h : es.Pairwise fun u v => Apart u.name v.name) {u v : Val} (hu : u ∈ es) (hv : v ∈ es) :
    u = v ∨ Apart u.name v.name := by
  induction h with
  | nil => cases hu
  | @cons a l ha _ ih =>
    rcases List.mem_cons.mp hu with rfl | hu
    · rcases List.mem_cons.mp hv with rfl | hv
      · exact .inl rfl
      · exact .inr (ha v hv)
    · rcases List.mem_cons.mp hv with rfl | hv
      · rename_i hul
        exact .inr (ha u hul).symm
      · exact ih hu hv

theorem lookup_some {es : List Val} {k : Str} {v : Val} (h : lookup es k = some v) : v ∈ es ∧ v.name = k :=
  ⟨List.mem_of_find?_eq_some h, by simpa using List.find?_some h⟩

theorem lookup_of_mem {es : List Val} (hw : es.Pairwise fun u v => Apart u.name v.name) {v : Val} (hv : v ∈ es) : lookup es v.name = some v := by
  cases h : lookup es v.name with
  | none =>
    have := List.find?_eq_none.mp h v hv
    simp at this
  | some u =>
    obtain ⟨h1, h2⟩ := lookup_some h
    rcases apart_or_eq hw h1 hv with rfl | h3
    · rfl
    · exact absurd h2 h3.1

theorem mem_cuts {k a b : Str} : (a, b) ∈ cuts k ↔ k = a ++ 46 :: b := by
  induction k generalizing a with
  | nil => simp [cuts]
  | cons c cs ih =>
    simp only [cuts, List.mem_append, List.mem_map, Prod.mk.injEq, Prod.exists]
    constructor
    · rintro (h | ⟨x, y, h, rfl, rfl⟩)
      · split at h
        · next hc => simp only [List.mem_singleton, Prod.mk.injEq] at h; obtain ⟨rfl, rfl⟩ := h; subst hc; rfl
        · cases h
      · rw [ih.mp h]; rfl
    · intro h
      cases a with
      | nil => left; simp only [List.nil_append, List.cons.injEq] at h; simp [h.1, h.2]
      | cons x xs =>
        right
        simp only [List.cons_append, List.cons.injEq] at h
        exact ⟨xs, b, ih.mpr h.2, by rw [h.1], rfl⟩

/-- Two ways to cut a name. -/
theorem cut_two {a b c d : Str} (h : a ++ 46 :: b = c ++ 46 :: d) : (a = c ∧ b = d) ∨ (a ++ [46]) <+: c ∨ (c ++ [46]) <+: a := by
  rcases List.append_eq_append_iff.mp h with ⟨x, rfl, hx⟩ | ⟨x, rfl, hx⟩
  · cases x with
    | nil => simp at hx; exact .inl ⟨by simp, hx⟩
    | cons y ys =>
      simp only [List.cons_append, List.cons.injEq] at hx
      right; left
      exact ⟨ys, by rw [← hx.1]; simp⟩
  · cases x with
    | nil => simp at hx; exact .inl ⟨by simp, hx.symm⟩
    | cons y ys =>
      simp only [List.cons_append, List.cons.injEq] at hx
      right; right
      exact ⟨ys, by rw [← hx.1]; simp⟩

theorem splitKey_some {es : List Val} {k r : Str} {v : Val} (h : splitKey es k = some (v, r)) : v ∈ es ∧ v.isTable = true ∧ k = v.name ++ 46 :: r := by
  obtain ⟨⟨a, b⟩, h1, h2⟩ := List.exists_of_findSome?_eq_some h
  dsimp only at h2
  split at h2
  · next u hu =>
    split at h2
    · next ht =>
      simp only [Option.some.injEq, Prod.mk.injEq] at h2
      obtain ⟨rfl, rfl⟩ := h2
      obtain ⟨m, n⟩ := lookup_some hu
      exact ⟨m, ht, by rw [n]; exact mem_cuts.mp h1⟩
    · cases h2
  · cases h2

theorem findSome_unique {α β : Type} {f : α → Option β} {x : β} : ∀ {l : List α}, (∃ a ∈ l, f a = some x) → (∀ a ∈ l, ∀ y, f a = some y → y = x) →
    l.findSome? f = some x := by
  intro l
  induction l with
  | nil => rintro ⟨a, h, -⟩; cases h
  | cons b l ih =>
    rintro ⟨a, ha, hx⟩ hall
    rw [List.findSome?_cons]
    cases hb : f b with
    | some y => exact congrArg some (hall b (by simp) y hb)
    | none =>
      rcases List.mem_cons.mp ha with rfl | ha
      · rw [hb] at hx; cases hx
      · exact ih ⟨a, ha, hx⟩ fun c hc => hall c (List.mem_cons_of_mem _ hc)

theorem splitKey_deep {es : List Val} (hw : es.Pairwise fun u v => Apart u.name v.name) {u : Val} (hu : u ∈ es) (ht : u.isTable = true) (k : Str) :
    lookup es (u.name ++ 46 :: k) = none ∧ splitKey es (u.name ++ 46 :: k) = some (u, k) := by
  constructor
  · cases h : lookup es (u.name ++ 46 :: k) with
    | none => rfl
    | some v =>
      obtain ⟨h1, h2⟩ := lookup_some h
      exfalso
      rcases apart_or_eq hw h1 hu with rfl | h3
      · have := congrArg List.length h2; simp at this
      · exact h3.2.2 ⟨k, by rw [h2]; simp⟩
  · refine findSome_unique ⟨(u.name, k), mem_cuts.mpr rfl, by simp [lookup_of_mem hw hu, ht]⟩ ?_
    rintro ⟨a, b⟩ hm y hy
    have e := mem_cuts.mp hm
    dsimp only at hy
    split at hy
    · next v hv =>
      split at hy
      · cases hy
        obtain ⟨h1, h2⟩ := lookup_some hv
        subst h2
        rcases apart_or_eq hw h1 hu with rfl | h3
        · rw [(List.append_cancel_left_eq _ _ _).mp e |> List.cons.inj |>.2]
        · rcases cut_two e with ⟨h4, -⟩ | h4 | h4
          · exact absurd h4.symm h3.1
          · exact absurd h4 h3.2.2
          · exact absurd h4 h3.2.1
      · cases hy
    · cases hy

theorem get_sound : ∀ (fuel : Nat) {es : List Val} {k : Str} {v : Val}, getFuel fuel es k = some v → Path es k v := by
  intro fuel
  induction fuel with
  | zero => intro es k v h; cases h
  | succ n ih =>
    intro es k v h
    unfold getFuel at h
    split at h
    · next u hu =>
      cases h
      obtain ⟨h1, rfl⟩ := lookup_some hu
      exact .here h1
    · split at h
      · next u r hs =>
        obtain ⟨h1, h2, rfl⟩ := splitKey_some hs
        exact .deep h1 h2 (ih h)
      · cases h

theorem get_complete {es : List Val} {k : Str} {v : Val} (h : Path es k v) : WF es → ∀ fuel, k.length < fuel → getFuel fuel es k = some v := by
  induction h with
  | here hv =>
    intro hw fuel hf
    obtain ⟨hp, -⟩ := hw
    cases fuel with
    | zero => omega
    | succ n => simp only [getFuel, lookup_of_mem hp hv]
  | @deep es u v k hu ht _ ih =>
    intro hw fuel hf
    obtain ⟨hp, hs⟩ := hw
    cases fuel with
    | zero => omega
    | succ n =>
      obtain ⟨h1, h2⟩ := splitKey_deep hp hu ht k
      simp only [getFuel, h1, h2]
      refine ih (hs u hu ht) n ?_
      simp only [List.length_append, List.length_cons] at hf
      omega

theorem mem_deepKeys {es : List Val} {k : Str} : k ∈ deepKeys es ↔ ∃ u ∈ es, u.isTable = true ∧ ∃ k', k' ∈ keys u.entries ∧ k = u.name ++ 46 :: k' := by
  induction es with
  | nil => simp [deepKeys]
  | cons u es ih =>
    obtain ⟨n, i, t, sub⟩ := u
    rw [deepKeys, List.mem_append, ih]
    simp only [List.mem_cons, exists_eq_or_imp, Val.isTable, Val.entries, Val.name]
    refine or_congr ?_ Iff.rfl
    cases t
    · simp
    · simp only [if_true, List.mem_map, true_and]
      constructor
      · rintro ⟨a, h1, rfl⟩; exact ⟨a, h1, rfl⟩
      · rintro ⟨a, h1, rfl⟩; exact ⟨a, h1, rfl⟩

theorem keys_eq (es : List Val) : keys es = es.map Val.name ++ deepKeys es := by rw [keys]

theorem mem_keys : ∀ (n : Nat) {es : List Val} {k : Str}, k.length < n → (k ∈ keys es ↔ ∃ v, Path es k v) := by
  intro n
  induction n with
  | zero => intro es k h; omega
  | succ n ih =>
    intro es k hk
    rw [keys_eq, List.mem_append, List.mem_map, mem_deepKeys]
    constructor
    · rintro (⟨v, h1, rfl⟩ | ⟨u, h1, h2, k', h3, rfl⟩)
      · exact ⟨v, .here h1⟩
      · simp only [List.length_append, List.length_cons] at hk
        obtain ⟨v, hv⟩ := (ih (by omega)).mp h3
        exact ⟨v, .deep h1 h2 hv⟩
    · rintro ⟨v, hv⟩
      cases hv with
      | here h1 => exact .inl ⟨v, h1, rfl⟩
      | @deep _ u _ k' h1 h2 h3 =>
        simp only [List.length_append, List.length_cons] at hk
        exact .inr ⟨u, h1, h2, k', (ih (by omega)).mpr ⟨v, h3⟩, rfl⟩

theorem deepKeys_nodup {es : List Val} (hp : es.Pairwise fun u v => Apart u.name v.name) (hs : ∀ v ∈ es, v.isTable = true → (keys v.entries).Nodup) :
    (deepKeys es).Nodup := by
  induction hp with
  | nil => simp [deepKeys]
  | @cons u es ha _ ih =>
    have hih := ih fun v hv => hs v (List.mem_cons_of_mem _ hv)
    have hu := hs u (by simp)
    obtain ⟨n, i, t, sub⟩ := u
    rw [deepKeys]
    cases t
    · simpa using hih
    · refine List.nodup_append.mpr ⟨?_, hih, ?_⟩
      · rw [if_pos rfl]
        refine (hu rfl).map ?_
        intro a b e
        simpa using e
      · rintro x hx y hy rfl
        rw [if_pos rfl] at hx
        obtain ⟨k, -, rfl⟩ := List.mem_map.mp hx
        obtain ⟨w, hw, -, k', -, e⟩ := mem_deepKeys.mp hy
        have h3 := ha w hw
        rcases cut_two e with ⟨h4, -⟩ | h4 | h4
        · exact h3.1 h4
        · exact h3.2.1 h4
        · exact h3.2.2 h4

theorem keys_nodup {es : List Val} (h : WF es) : (keys es).Nodup := by
  induction h with
  | @mk es hp _ ih =>
    rw [keys_eq]
    refine List.nodup_append.mpr ⟨?_, deepKeys_nodup hp ih, ?_⟩
    · rw [List.Nodup, List.pairwise_map]
      exact hp.imp fun h => h.1
    · rintro x hx y hy rfl
      obtain ⟨v, hv, rfl⟩ := List.mem_map.mp hx
      obtain ⟨u, hu, -, k, -, e⟩ := mem_deepKeys.mp hy
      rcases apart_or_eq hp hu hv with rfl | h3
      · have := congrArg List.length e; simp at this
      · exact h3.2.1 ⟨k, by rw [e]; simp⟩

theorem len_eq : ∀ es : List Val, len es = (keys es).length
  | [] => by rw [keys_eq]; simp [len, deepKeys]
  | .mk n i t sub :: es => by
    have h1 := len_eq sub
    have h2 := len_eq es
    rw [keys_eq] at h2 ⊢
    rw [len, deepKeys]
    simp only [List.map_cons, List.cons_append, List.length_cons, List.length_append, List.length_map] at h2 ⊢
    cases t
    · simp; omega
    · simp; omega

theorem isPrefixOf_iff {a b : Str} : a.isPrefixOf b = true ↔ a <+: b := List.isPrefixOf_iff_prefix

theorem declare_ok {es es' : List Val} {v : Val} : declare es v = .ok es' ↔ (∀ u ∈ es, Apart u.name v.name) ∧ es' = es ++ [v] := by
  unfold declare
  split
  · next h =>
    obtain ⟨u, hu, hn⟩ := List.any_eq_true.mp h
    constructor
    · intro e; cases e
    · rintro ⟨h1, -⟩; exact absurd (by simpa using hn) (h1 u hu).1
  · next h =>
    split
    · next h' =>
      obtain ⟨u, hu, hn⟩ := List.any_eq_true.mp h'
      constructor
      · intro e; cases e
      · rintro ⟨h1, -⟩
        rw [Bool.or_eq_true, isPrefixOf_iff, isPrefixOf_iff] at hn
        rcases hn with hn | hn
        · exact absurd hn (h1 u hu).2.2
        · exact absurd hn (h1 u hu).2.1
    · next h' =>
      constructor
      · intro e
        cases e
        refine ⟨?_, rfl⟩
        intro u hu
        refine ⟨?_, ?_, ?_⟩
        · intro e; exact h (List.any_eq_true.mpr ⟨u, hu, by simp [e]⟩)
        · intro e; exact h' (List.any_eq_true.mpr ⟨u, hu, by rw [Bool.or_eq_true, isPrefixOf_iff, isPrefixOf_iff]; exact .inr e⟩)
        · intro e; exact h' (List.any_eq_true.mpr ⟨u, hu, by rw [Bool.or_eq_true, isPrefixOf_iff, isPrefixOf_iff]; exact .inl e⟩)
      · rintro ⟨-, rfl⟩; rfl

theorem change_wf {es es' : List Val} (h : Change es es') : WF es → WF es' := by
  induction h with
  | declare hv hd =>
    rintro ⟨hp, hs⟩
    obtain ⟨h1, rfl⟩ := declare_ok.mp hd
    refine ⟨List.pairwise_append.mpr ⟨hp, List.pairwise_singleton _ _, ?_⟩, ?_⟩
    · intro a ha b hb
      rw [List.mem_singleton] at hb
      subst hb
      exact h1 a ha
    · intro w hw ht
      rcases List.mem_append.mp hw with hw | hw
      · exact hs w hw ht
      · rw [List.mem_singleton] at hw; subst hw; exact hv ht
  | undeclare hd =>
    rintro ⟨hp, hs⟩
    unfold undeclare at hd
    split at hd
    · cases hd
      exact ⟨hp.filter _, fun w hw => hs w (List.mem_filter.mp hw).1⟩
    · cases hd
  | @inside a b sub sub' n i _ ih =>
    rintro ⟨hp, hs⟩
    have hsub := ih (hs (.mk n i true sub) (by simp) rfl)
    refine ⟨?_, ?_⟩
    · rw [List.pairwise_append, List.pairwise_cons] at hp ⊢
      refine ⟨hp.1, ⟨fun v hv => hp.2.1.1 v hv, hp.2.1.2⟩, ?_⟩
      intro x hx y hy
      rcases List.mem_cons.mp hy with rfl | hy
      · exact hp.2.2 x hx (.mk n i true sub) (by simp)
      · exact hp.2.2 x hx y (List.mem_cons_of_mem _ hy)
    · intro w hw ht
      rcases List.mem_append.mp hw with hw | hw
      · exact hs w (List.mem_append.mpr (.inl hw)) ht
      · rcases List.mem_cons.mp hw with rfl | hw
        · exact hsub
        · exact hs w (List.mem_append.mpr (.inr (List.mem_cons_of_mem _ hw))) ht

theorem built_wf {es : List Val} (h : Built es) : WF es := by
  induction h with
  | empty => exact ⟨List.Pairwise.nil, by simp⟩
  | change _ hc ih => exact change_wf hc ih

/-! ## C146 -/

/-- **C146**: in every scope that can be built, looking up a compound name gives a value exactly if the name leads to it. -/
theorem C146_lookup {es : List Val} (h : Built es) (k : Str) (v : Val) : get es k = some v ↔ Path es k v :=
  ⟨get_sound _, fun hp => get_complete hp (built_wf h) _ (Nat.lt_succ_self _)⟩

/-- **C146**: a name leads to one value only. -/
theorem C146_unambiguous {es : List Val} (h : Built es) {k : Str} {v w : Val} (h1 : Path es k v) (h2 : Path es k w) : v = w := by
  rw [← C146_lookup h] at h1 h2
  rw [h1] at h2
  exact Option.some.inj h2

/-- **C146**: the names that are iterated are those that can be looked up, each once, and `len` is their number. -/
theorem C146_keys {es : List Val} (h : Built es) : (∀ k, k ∈ keys es ↔ (get es k).isSome = true) ∧ (keys es).Nodup ∧ len es = (keys es).length := by
  refine ⟨?_, keys_nodup (built_wf h), len_eq es⟩
  intro k
  rw [mem_keys (k.length + 1) (Nat.lt_succ_self _), Option.isSome_iff_exists]
  exact exists_congr fun v => (C146_lookup h k v).symm

/-- **C146**: a declaration succeeds exactly if the name is apart from those declared; then the value, and whatever is in it, can be
looked up, and all that could be looked up before still can. -/
theorem C146_declare {es : List Val} (h : Built es) {v : Val} (hv : v.isTable = true → WF v.entries) :
    ((∃ es', declare es v = .ok es') ↔ ∀ u ∈ es, Apart u.name v.name) ∧
    (∀ es', declare es v = .ok es' → get es' v.name = some v ∧
      (∀ k w, v.isTable = true → Path v.entries k w → get es' (v.name ++ 46 :: k) = some w) ∧ (∀ k w, get es k = some w → get es' k = some w)) := by
  refine ⟨⟨?_, ?_⟩, ?_⟩
  · rintro ⟨es', he⟩; exact (declare_ok.mp he).1
  · intro ha; exact ⟨_, declare_ok.mpr ⟨ha, rfl⟩⟩
  · intro es' he
    have hb : Built es' := .change h (.declare hv he)
    obtain ⟨-, rfl⟩ := declare_ok.mp he
    refine ⟨(C146_lookup hb _ _).mpr (.here (by simp)), ?_, ?_⟩
    · intro k w ht hp; exact (C146_lookup hb _ _).mpr (.deep (by simp) ht hp)
    · intro k w hk
      refine (C146_lookup hb _ _).mpr ?_
      cases (C146_lookup h k w).mp hk with
      | here h1 => exact .here (by simp [h1])
      | deep h1 h2 h3 => exact .deep (by simp [h1]) h2 h3

/-- **C146**: after a declaration has been taken back its name is not found, nor any name inside it; other names are. -/
theorem C146_undeclare {es es' : List Val} (h : Built es) {v : Val} (he : undeclare es v = some es') :
    get es' v.name = none ∧ (∀ k, get es' (v.name ++ 46 :: k) = none) ∧
    (∀ k w, k ≠ v.name → ¬ (v.name ++ [46]) <+: k → get es k = some w → get es' k = some w) := by
  have hb : Built es' := .change h (.undeclare he)
  have hes' : es' = es.filter (·.name != v.name) := by
    unfold undeclare at he
    split at he
    · exact (Option.some.inj he).symm
    · cases he
  obtain ⟨u0, hu0, hn0⟩ : ∃ u ∈ es, u.name = v.name := by
    unfold undeclare at he
    split at he
    · next hany =>
      obtain ⟨u, h1, h2⟩ := List.any_eq_true.mp hany
      exact ⟨u, h1, by simpa using h2⟩
    · cases he
  obtain ⟨hp, -⟩ := built_wf h
  have hmem : ∀ u, u ∈ es' ↔ u ∈ es ∧ u.name ≠ v.name := by intro u; rw [hes', List.mem_filter]; simp
  have hap : ∀ u ∈ es', Apart u.name v.name := by
    intro u hu
    obtain ⟨h1, h2⟩ := (hmem u).mp hu
    rcases apart_or_eq hp h1 hu0 with rfl | h3
    · exact absurd hn0 h2
    · rw [hn0] at h3; exact h3
  refine ⟨?_, ?_, ?_⟩
  · cases hg : get es' v.name with
    | none => rfl
    | some w =>
      exfalso
      generalize hk : v.name = k at hg
      cases (C146_lookup hb _ _).mp hg with
      | here h1 => exact (hap w h1).1 hk.symm
      | @deep _ u _ k' h1 h2 h3 => exact (hap u h1).2.1 ⟨k', by rw [hk]; simp⟩
  · intro k
    cases hg : get es' (v.name ++ 46 :: k) with
    | none => rfl
    | some w =>
      exfalso
      generalize hk : v.name ++ 46 :: k = key at hg
      cases (C146_lookup hb _ _).mp hg with
      | here h1 => exact (hap w h1).2.2 ⟨k, by rw [← hk]; simp⟩
      | @deep _ u _ k' h1 h2 h3 =>
        rcases cut_two hk with ⟨h4, -⟩ | h4 | h4
        · exact (hap u h1).1 h4.symm
        · exact (hap u h1).2.2 h4
        · exact (hap u h1).2.1 h4
  · intro k w hk hpre hg
    refine (C146_lookup hb _ _).mpr ?_
    cases (C146_lookup h k w).mp hg with
    | here h1 => exact .here ((hmem w).mpr ⟨h1, hk⟩)
    | @deep _ u _ k' h1 h2 h3 =>
      refine .deep ((hmem u).mpr ⟨h1, ?_⟩) h2 h3
      intro e
      exact hpre ⟨k', by rw [e]; simp⟩

/-- A schema N.S with an entity type E with a property P; and another schema. -/
def sampleP : Val := .mk [80] 1 false []
def sampleE : Val := .mk [69] 2 true [sampleP]
def sampleS : Val := .mk [78, 46, 83] 3 true [sampleE]
def sampleT : Val := .mk [78, 46, 84] 4 true []

example : Built [sampleS, sampleT] := by
  have hp : WF [sampleP] := ⟨List.pairwise_singleton _ _, by simp [sampleP, Val.isTable]⟩
  have he : WF [sampleE] := ⟨List.pairwise_singleton _ _, by
    intro v hv ht
    rw [List.mem_singleton] at hv
    subst hv
    exact hp⟩
  refine .change (.change .empty (.declare (es' := [sampleS]) (v := sampleS) (fun _ => he) rfl)) (.declare (v := sampleT) ?_ ?_)
  · intro _; exact ⟨List.Pairwise.nil, by simp [sampleT, Val.entries]⟩
  · rfl

/-- "N.S.E.P" is found; "N.S" and "N.S.E" are names too; "N" cannot be declared. -/
example : (get [sampleS, sampleT] [78, 46, 83, 46, 69, 46, 80]).map Val.name = some [80] := by decide +kernel
example : keys [sampleS, sampleT] = [[78, 46, 83], [78, 46, 84], [78, 46, 83, 46, 69], [78, 46, 83, 46, 69, 46, 80]] := by
  simp [keys, deepKeys, sampleS, sampleT, sampleE, sampleP, Val.name]
example : (match declare [sampleS] (.mk [78] 9 true []) with | .error .incompatible => true | _ => false) = true := by decide +kernel

/-- **C146, violated**: taking back the declaration of a value that was refused takes away the value that was declared. -/
theorem C146_undeclare_other_violation : ∃ u v : Val, declare [u] v = .error .duplicate ∧ undeclare [u] v = some [] ∧
    Built [u] ∧ u ≠ v :=
  ⟨sampleP, .mk [80] 7 false [], rfl, rfl,
    .change .empty (.declare (v := sampleP) (by simp [sampleP, Val.isTable]) rfl), by simp [sampleP]⟩

end Verif.Csdl
