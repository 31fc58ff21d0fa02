import Verif.Xml.ContentProps
import Mathlib.Data.List.Dedup

/-! # Content models: the claims (C75, C76) -/
namespace Verif.Xml

variable {N : Type} [DecidableEq N]

/-! ## Marked and plain words -/

theorem occ_map {α β : Type} (g : α → β) (occ : Occ) (L : List α → Prop) (L' : List β → Prop)
    (h : ∀ w, L' w ↔ ∃ m, L m ∧ m.map g = w) (w : List β) :
    occ.lang L' w ↔ ∃ m, occ.lang L m ∧ m.map g = w := by
  have hs : ∀ ws : List (List β), (∀ v ∈ ws, L' v) →
      ∃ ms : List (List α), (∀ v ∈ ms, L v) ∧ ms.flatten.map g = ws.flatten ∧ (ms = [] ↔ ws = []) := by
    intro ws
    induction ws with
    | nil => intro _; exact ⟨[], by simp⟩
    | cons v ws ih =>
      intro hv
      obtain ⟨m, hm, rfl⟩ := (h v).1 (hv v (by simp))
      obtain ⟨ms, h1, h2, _⟩ := ih (fun v hv' => hv v (by simp [hv']))
      exact ⟨m :: ms, by simpa using ⟨hm, h1⟩, by simp [← h2], by simp⟩
  have hs' : ∀ ms : List (List α), (∀ v ∈ ms, L v) → ∀ v ∈ ms.map (List.map g), L' v := by
    intro ms hm v hv
    obtain ⟨m, h1, rfl⟩ := List.mem_map.1 hv
    exact (h _).2 ⟨m, hm m h1, rfl⟩
  cases occ with
  | once => exact h w
  | opt =>
    simp only [Occ.lang]
    rw [h]
    constructor
    · rintro (rfl | ⟨m, h1, h2⟩)
      · exact ⟨[], Or.inl rfl, rfl⟩
      · exact ⟨m, Or.inr h1, h2⟩
    · rintro ⟨m, rfl | h1, h2⟩
      · exact Or.inl (by simpa using h2.symm)
      · exact Or.inr ⟨m, h1, h2⟩
  | star =>
    constructor
    · rintro ⟨ws, h1, rfl⟩
      obtain ⟨ms, h2, h3, _⟩ := hs ws h1
      exact ⟨ms.flatten, ⟨ms, h2, rfl⟩, h3⟩
    · rintro ⟨m, ⟨ms, h1, rfl⟩, rfl⟩
      exact ⟨ms.map (List.map g), hs' ms h1, by rw [List.map_flatten]⟩
  | plus =>
    constructor
    · rintro ⟨ws, h0, h1, rfl⟩
      obtain ⟨ms, h2, h3, h4⟩ := hs ws h1
      exact ⟨ms.flatten, ⟨ms, fun h => h0 (h4.1 h), h2, rfl⟩, h3⟩
    · rintro ⟨m, ⟨ms, h0, h1, rfl⟩, rfl⟩
      exact ⟨ms.map (List.map g), by simpa using h0, hs' ms h1, by rw [List.map_flatten]⟩

mutual
theorem lang_map : ∀ (c : CP N) (w : List N),
    Lang (fun _ n => n) c w ↔ ∃ m, Lang mk c m ∧ m.map Prod.fst = w
  | .name i n occ, w => by
    simp only [Lang]
    apply occ_map
    intro w
    simp [mk, eq_comm]
  | .choice occ cs, w => by
    simp only [Lang]
    apply occ_map
    exact langAny_map cs
  | .seq occ cs, w => by
    simp only [Lang]
    apply occ_map
    exact langSeq_map cs
theorem langAny_map : ∀ (cs : List (CP N)) (w : List N),
    LangAny (fun _ n => n) cs w ↔ ∃ m, LangAny mk cs m ∧ m.map Prod.fst = w
  | [], w => by simp [LangAny]
  | c :: cs, w => by
    simp only [LangAny]
    rw [lang_map c, langAny_map cs]
    constructor
    · rintro (⟨m, h1, h2⟩ | ⟨m, h1, h2⟩)
      · exact ⟨m, Or.inl h1, h2⟩
      · exact ⟨m, Or.inr h1, h2⟩
    · rintro ⟨m, h1 | h1, h2⟩
      · exact Or.inl ⟨m, h1, h2⟩
      · exact Or.inr ⟨m, h1, h2⟩
theorem langSeq_map : ∀ (cs : List (CP N)) (w : List N),
    LangSeq (fun _ n => n) cs w ↔ ∃ m, LangSeq mk cs m ∧ m.map Prod.fst = w
  | [], w => by simp [LangSeq, eq_comm]
  | c :: cs, w => by
    simp only [LangSeq]
    constructor
    · rintro ⟨u, v, rfl, h1, h2⟩
      obtain ⟨mu, h3, rfl⟩ := (lang_map c u).1 h1
      obtain ⟨mv, h4, rfl⟩ := (langSeq_map cs v).1 h2
      exact ⟨mu ++ mv, ⟨mu, mv, rfl, h3, h4⟩, by simp⟩
    · rintro ⟨m, ⟨u, v, rfl, h1, h2⟩, rfl⟩
      exact ⟨u.map Prod.fst, v.map Prod.fst, by simp, (lang_map c _).2 ⟨u, h1, rfl⟩,
        (langSeq_map cs _).2 ⟨v, h2, rfl⟩⟩
end

/-! ## Words through every particle -/

theorem occ_sub {α : Type} {occ : Occ} {L : List α → Prop} {u : List α} (h : L u) : occ.lang L u :=
  occ_one L h

mutual
theorem lang_ne : ∀ c : CP N, c.Wf → ∃ w, Lang mk c w
  | .name i n occ, _ => ⟨[(n, i)], by simp only [Lang]; exact occ_sub rfl⟩
  | .choice occ cs, h => by
    simp only [CP.Wf] at h
    obtain ⟨w, hw⟩ := langAny_ne cs h.1 h.2
    exact ⟨w, by simp only [Lang]; exact occ_sub hw⟩
  | .seq occ cs, h => by
    simp only [CP.Wf] at h
    obtain ⟨w, hw⟩ := langSeq_ne cs h
    exact ⟨w, by simp only [Lang]; exact occ_sub hw⟩
theorem langAny_ne : ∀ cs : List (CP N), cs ≠ [] → WfL cs → ∃ w, LangAny mk cs w
  | [], h, _ => absurd rfl h
  | c :: cs, _, h => by
    obtain ⟨w, hw⟩ := lang_ne c h.1
    exact ⟨w, Or.inl hw⟩
theorem langSeq_ne : ∀ cs : List (CP N), WfL cs → ∃ w, LangSeq mk cs w
  | [], _ => ⟨[], rfl⟩
  | c :: cs, h => by
    obtain ⟨u, hu⟩ := lang_ne c h.1
    obtain ⟨v, hv⟩ := langSeq_ne cs h.2
    exact ⟨u ++ v, u, v, rfl, hu, hv⟩
end

mutual
theorem lang_thru : ∀ c : CP N, c.Wf → ∀ a ∈ c.parts, ∃ u v, Lang mk c (u ++ a :: v)
  | .name i n occ, _, a, ha => by
    simp only [CP.parts, List.mem_singleton] at ha
    subst ha
    exact ⟨[], [], by simp only [Lang]; exact occ_sub rfl⟩
  | .choice occ cs, h, a, ha => by
    simp only [CP.Wf] at h
    obtain ⟨u, v, hw⟩ := langAny_thru cs h.2 a (by simpa only [CP.parts] using ha)
    exact ⟨u, v, by simp only [Lang]; exact occ_sub hw⟩
  | .seq occ cs, h, a, ha => by
    simp only [CP.Wf] at h
    obtain ⟨u, v, hw⟩ := langSeq_thru cs h a (by simpa only [CP.parts] using ha)
    exact ⟨u, v, by simp only [Lang]; exact occ_sub hw⟩
theorem langAny_thru : ∀ cs : List (CP N), WfL cs → ∀ a ∈ partsL cs, ∃ u v, LangAny mk cs (u ++ a :: v)
  | [], _, a, ha => by simp [partsL] at ha
  | c :: cs, h, a, ha => by
    simp only [partsL, List.mem_append] at ha
    rcases ha with ha | ha
    · obtain ⟨u, v, hw⟩ := lang_thru c h.1 a ha
      exact ⟨u, v, Or.inl hw⟩
    · obtain ⟨u, v, hw⟩ := langAny_thru cs h.2 a ha
      exact ⟨u, v, Or.inr hw⟩
theorem langSeq_thru : ∀ cs : List (CP N), WfL cs → ∀ a ∈ partsL cs, ∃ u v, LangSeq mk cs (u ++ a :: v)
  | [], _, a, ha => by simp [partsL] at ha
  | c :: cs, h, a, ha => by
    simp only [partsL, List.mem_append] at ha
    rcases ha with ha | ha
    · obtain ⟨u, v, hw⟩ := lang_thru c h.1 a ha
      obtain ⟨r, hr⟩ := langSeq_ne cs h.2
      exact ⟨u, v ++ r, u ++ a :: v, r, by simp, hw, hr⟩
    · obtain ⟨r, hr⟩ := lang_ne c h.1
      obtain ⟨u, v, hw⟩ := langSeq_thru cs h.2 a ha
      exact ⟨r ++ u, v, r, u ++ a :: v, by simp, hr, hw⟩
end

/-! ## The maps of a whole model -/

mutual
theorem build_ids : ∀ (c : CP N) (E : PMap N), (build c E).map Prod.fst = c.parts.map Prod.snd
  | .name i n occ, E => by simp [build, CP.parts]
  | .choice occ cs, E => by simp only [build, CP.parts]; exact buildChoice_ids cs _
  | .seq occ cs, E => by simp only [build, CP.parts]; exact buildSeq_ids cs _
theorem buildChoice_ids : ∀ (cs : List (CP N)) (E : PMap N),
    (buildChoice cs E).map Prod.fst = (partsL cs).map Prod.snd
  | [], E => by simp [buildChoice, partsL]
  | c :: cs, E => by simp [buildChoice, partsL, build_ids c, buildChoice_ids cs]
theorem buildSeq_ids : ∀ (cs : List (CP N)) (E : PMap N),
    (buildSeq cs E).map Prod.fst = (partsL cs).map Prod.snd
  | [], E => by simp [buildSeq, partsL]
  | c :: cs, E => by simp [buildSeq, partsL, build_ids c, buildSeq_ids cs]
end

mutual
theorem first_parts : ∀ (c : CP N) (a : N × Nat), First c a → a ∈ c.parts
  | .name i n occ, a, h => by simpa [First, CP.parts] using h
  | .choice occ cs, a, h => by
    simp only [CP.parts]; exact firstAny_parts cs a (by simpa only [First] using h)
  | .seq occ cs, a, h => by
    simp only [CP.parts]; exact firstSeq_parts cs a (by simpa only [First] using h)
theorem firstAny_parts : ∀ (cs : List (CP N)) (a : N × Nat), FirstAny cs a → a ∈ partsL cs
  | [], a, h => by simp [FirstAny] at h
  | c :: cs, a, h => by
    simp only [partsL, List.mem_append]
    rcases h with h | h
    · exact Or.inl (first_parts c a h)
    · exact Or.inr (firstAny_parts cs a h)
theorem firstSeq_parts : ∀ (cs : List (CP N)) (a : N × Nat), FirstSeq cs a → a ∈ partsL cs
  | [], a, h => by simp [FirstSeq] at h
  | c :: cs, a, h => by
    simp only [partsL, List.mem_append]
    rcases h with h | h
    · exact Or.inl (first_parts c a h)
    · exact Or.inr (firstSeq_parts cs a h.2)
end

theorem newExit_ok (c : CP N) (occ : Occ) (E : PMap N) : Ok (newExit c occ E).names := by
  apply addAll_ok
  dsimp only
  split
  · exact (seek_spec c []).2.2 ok_nil
  · exact ok_nil

mutual
theorem build_maps : ∀ (c : CP N) (E : PMap N), ∀ p ∈ build c E,
    Ok p.2.names ∧ ∀ a, Has p.2.names a → a ∈ c.parts ∨ Has E.names a
  | .name i n occ, E, p, hp => by
    simp only [build, List.mem_singleton] at hp
    subst hp
    refine ⟨newExit_ok _ _ _, fun a ha => ?_⟩
    rcases (newExit_has _ _ _ a).1 ha with h | h
    · exact Or.inr h
    · exact Or.inl (first_parts _ a h.2)
  | .choice occ cs, E, p, hp => by
    have h := buildChoice_maps cs _ p (by simpa only [build] using hp)
    refine ⟨h.1, fun a ha => ?_⟩
    rcases h.2 a ha with h | h
    · exact Or.inl (by simpa only [CP.parts] using h)
    · rcases (newExit_has _ _ _ a).1 h with h | h
      · exact Or.inr h
      · exact Or.inl (first_parts _ a h.2)
  | .seq occ cs, E, p, hp => by
    have h := buildSeq_maps cs _ p (by simpa only [build] using hp)
    refine ⟨h.1, fun a ha => ?_⟩
    rcases h.2 a ha with h | h
    · exact Or.inl (by simpa only [CP.parts] using h)
    · rcases (newExit_has _ _ _ a).1 h with h | h
      · exact Or.inr h
      · exact Or.inl (first_parts _ a h.2)
theorem buildChoice_maps : ∀ (cs : List (CP N)) (E : PMap N), ∀ p ∈ buildChoice cs E,
    Ok p.2.names ∧ ∀ a, Has p.2.names a → a ∈ partsL cs ∨ Has E.names a
  | [], E, p, hp => by simp [buildChoice] at hp
  | c :: cs, E, p, hp => by
    simp only [buildChoice, List.mem_append] at hp
    simp only [partsL, List.mem_append]
    rcases hp with hp | hp
    · have h := build_maps c E p hp
      exact ⟨h.1, fun a ha => (h.2 a ha).imp Or.inl id⟩
    · have h := buildChoice_maps cs E p hp
      exact ⟨h.1, fun a ha => (h.2 a ha).imp Or.inr id⟩
theorem buildSeq_maps : ∀ (cs : List (CP N)) (E : PMap N), ∀ p ∈ buildSeq cs E,
    Ok p.2.names ∧ ∀ a, Has p.2.names a → a ∈ partsL cs ∨ Has E.names a
  | [], E, p, hp => by simp [buildSeq] at hp
  | c :: cs, E, p, hp => by
    simp only [buildSeq, List.mem_append] at hp
    simp only [partsL, List.mem_append]
    rcases hp with hp | hp
    · have h := build_maps c _ p hp
      refine ⟨h.1, fun a ha => ?_⟩
      rcases h.2 a ha with h | h
      · exact Or.inl (Or.inl h)
      · rcases (childExits_has cs E a).1 h with h | h
        · exact Or.inl (Or.inr (firstSeq_parts cs a h))
        · exact Or.inr h.2
    · have h := buildSeq_maps cs E p hp
      exact ⟨h.1, fun a ha => (h.2 a ha).imp Or.inr id⟩
end

omit [DecidableEq N] in
theorem mapOf_mem (maps : List (Nat × PMap N)) (h : (maps.map Prod.fst).Nodup) :
    ∀ p ∈ maps, mapOf maps p.1 = p.2 := by
  intro p hp
  unfold mapOf
  induction maps with
  | nil => simp at hp
  | cons q t ih =>
    simp only [List.map_cons, List.nodup_cons] at h
    rw [List.lookup_cons]
    rcases List.mem_cons.1 hp with rfl | hp
    · simp
    · have hne : p.1 ≠ q.1 := fun he => h.1 (List.mem_map.2 ⟨p, hp, he⟩)
      have : (p.1 == q.1) = false := by simpa using hne
      rw [this]
      exact ih h.2 hp

omit [DecidableEq N] in
theorem mapOf_cases (maps : List (Nat × PMap N)) (i : Nat) :
    (i, mapOf maps i) ∈ maps ∨ mapOf maps i = ⟨[], false⟩ := by
  unfold mapOf
  induction maps with
  | nil => right; simp
  | cons q t ih =>
    rw [List.lookup_cons]
    by_cases h : i = q.1
    · subst h; left; simp
    · have : (i == q.1) = false := by simpa using h
      rw [this]
      rcases ih with ih | ih
      · left; simp [ih]
      · right; exact ih

/-! ## The content models of a DTD -/

/-- Contents that `parse_content_spec` makes (parser.py:2804-2834, 3019-3078): a content model, or a
repeated choice of names for mixed content; all particles are different objects, choices are not
empty. -/
def Proper : Content N → Prop
  | .any => True
  | .empty => True
  | .model cp => cp.Wf ∧ cp.Distinct
  | .mixed cp => (∃ ns : List (N × Nat), cp = .choice .star (ns.map fun a => .name a.2 a.1 .once)) ∧
      cp.Distinct

/-- What a content declaration allows as child elements (XML 1.0, section 3, "Element Valid"). -/
def Allows : Content N → List N → Prop
  | .any, _ => True
  | .empty, w => w = []
  | .model cp, w => Allowed cp w
  | .mixed cp, w => Allowed cp w

/-- The model of a content with one. -/
def modelOf : Content N → Option (CP N)
  | .model cp => some cp
  | .mixed cp => some cp
  | _ => none

theorem wf_names (ns : List (N × Nat)) : WfL (ns.map fun a => CP.name a.2 a.1 Occ.once) := by
  induction ns with
  | nil => trivial
  | cons a ns ih => exact ⟨trivial, ih⟩

theorem partsL_names (ns : List (N × Nat)) :
    partsL (ns.map fun a => CP.name a.2 a.1 Occ.once) = ns := by
  induction ns with
  | nil => rfl
  | cons a ns ih => simp [partsL, CP.parts, ih]

/-- The runs through the maps of an element type are the marked words of its model. -/
theorem root_acc {ct : Content N} (hp : Proper ct) {cp : CP N} (hm : modelOf ct = some cp)
    {r : PMap N} (hr : rootMap ct = some r) (m : List (N × Nat)) :
    Acc (mapOf (allMaps ct)) r m ↔ Marked cp m := by
  cases ct with
  | any => cases hm
  | empty => cases hm
  | model cp' =>
    simp only [modelOf, Option.some.injEq] at hm
    subst hm
    simp only [rootMap, Option.some.injEq] at hr
    subst hr
    have hmo : ∀ p ∈ build cp' ⟨[], true⟩, mapOf (allMaps (.model cp')) p.1 = p.2 :=
      mapOf_mem _ (by rw [build_ids]; exact hp.2)
    cases m with
    | nil =>
      simp only [Acc, Marked]
      rw [nul_lang, (seek_spec cp' []).1]
      simp
    | cons a u =>
      simp only [Acc]
      rw [(seek_spec cp' []).2.1]
      constructor
      · rintro ⟨h1 | h1, h2⟩
        · exact absurd h1 (has_nil a)
        · obtain ⟨u1, v, rfl, h3, h4⟩ := sound cp' _ _ hmo a u h1 h2
          cases v with
          | nil => simpa using h3
          | cons b v => exact absurd h4.1 (has_nil b)
      · intro h
        have := complete cp' _ _ hmo a u [] h rfl
        rw [List.append_nil] at this
        exact ⟨Or.inr this.1, this.2⟩
  | mixed cp' =>
    simp only [modelOf, Option.some.injEq] at hm
    subst hm
    simp only [rootMap, Option.some.injEq] at hr
    subst hr
    have hmo : ∀ p ∈ build cp' ⟨(seek cp' []).1, true⟩, mapOf (allMaps (.mixed cp')) p.1 = p.2 :=
      mapOf_mem _ (by rw [build_ids]; exact hp.2)
    obtain ⟨ns, hns⟩ := hp.1
    have hnil : Marked cp' [] := by
      unfold Marked
      rw [nul_lang, hns]
      simp [nul, Occ.required]
    have hcat : ∀ u v, Marked cp' u → Marked cp' v → Marked cp' (u ++ v) := by
      intro u v hu hv
      rw [hns] at hu hv ⊢
      simp only [Marked, Lang] at hu hv ⊢
      obtain ⟨ws, h1, rfl⟩ := hu
      obtain ⟨ws', h2, rfl⟩ := hv
      refine ⟨ws ++ ws', ?_, by simp⟩
      intro x hx
      rcases List.mem_append.1 hx with h | h
      · exact h1 x h
      · exact h2 x h
    constructor
    · have key : ∀ (k : Nat) (m : List (N × Nat)), m.length ≤ k →
          Acc (mapOf (allMaps (.mixed cp'))) ⟨(seek cp' []).1, true⟩ m → Marked cp' m := by
        intro k
        induction k with
        | zero =>
          intro m hk _
          cases m with
          | nil => exact hnil
          | cons a m => simp at hk
        | succ k ih =>
          intro m hk hA
          cases m with
          | nil => exact hnil
          | cons a u =>
            obtain ⟨h1, h2⟩ := hA
            dsimp only at h1
            rw [(seek_spec cp' []).2.1] at h1
            rcases h1 with h1 | h1
            · exact absurd h1 (has_nil a)
            · obtain ⟨u1, v, rfl, h3, h4⟩ := sound cp' _ _ hmo a u h1 h2
              have hv := ih v (by simp at hk; omega) h4
              simpa using hcat _ _ h3 hv
      exact key m.length m (Nat.le_refl _)
    · intro h
      cases m with
      | nil => rfl
      | cons a u =>
        have := complete cp' _ _ hmo a u [] h rfl
        rw [List.append_nil] at this
        refine ⟨?_, this.2⟩
        dsimp only
        rw [(seek_spec cp' []).2.1]
        exact Or.inr this.1

theorem maps_ok (ct : Content N) (i : Nat) : Ok (mapOf (allMaps ct) i).names := by
  rcases mapOf_cases (allMaps ct) i with h | h
  · cases ct with
    | any => simp [allMaps] at h
    | empty => simp [allMaps] at h
    | model cp => exact (build_maps cp _ _ h).1
    | mixed cp => exact (build_maps cp _ _ h).1
  · rw [h]; exact ok_nil

theorem root_ok {ct : Content N} {r : PMap N} (hr : rootMap ct = some r) : Ok r.names := by
  cases ct with
  | any => cases hr
  | empty => cases hr
  | model cp => injection hr with hr; subst hr; exact (seek_spec cp []).2.2 ok_nil
  | mixed cp => injection hr with hr; subst hr; exact (seek_spec cp []).2.2 ok_nil

/-! ## The cursor -/

/-- The maps the cursor looks at. -/
def InC (ct : Content N) : Cur → PMap N → Prop
  | .start, m => rootMap ct = some m
  | .at ps, m => ∃ p ∈ ps, m = mapOf (allMaps ct) p
  | .fin, _ => False

/-- Names that lead from a cursor to the end. -/
def AccC (ct : Content N) (c : Cur) (v : List N) : Prop :=
  ∃ m, InC ct c m ∧ ∃ mv : List (N × Nat), mv.map Prod.fst = v ∧ Acc (mapOf (allMaps ct)) m mv

theorem inC_ok {ct : Content N} {c : Cur} {m : PMap N} (h : InC ct c m) : Ok m.names := by
  cases c with
  | start => exact root_ok h
  | «at» ps => obtain ⟨p, _, rfl⟩ := h; exact maps_ok ct p
  | fin => cases h

/-- One name. -/
theorem next_some {ct : Content N} {cp : CP N} (hm : modelOf ct = some cp) (c : Cur) (n : N) :
    ((next ct c (some n)).1 = true → ∃ ps, (next ct c (some n)).2 = .at ps ∧ ps ≠ [] ∧
        ∀ i, i ∈ ps ↔ ∃ m, InC ct c m ∧ Has m.names (n, i)) ∧
    ((next ct c (some n)).1 = false → (next ct c (some n)).2 = c ∧
        ∀ m i, InC ct c m → ¬ Has m.names (n, i)) := by
  cases c with
  | start =>
    obtain ⟨r, hr⟩ : ∃ r, rootMap ct = some r := by
      cases ct with
      | any => cases hm
      | empty => cases hm
      | model cp => exact ⟨_, rfl⟩
      | mixed cp => exact ⟨_, rfl⟩
    have hnext : next ct .start (some n) = startMap r (some n) := by
      unfold next startNext
      dsimp only
      rw [hr]
    rw [hnext]
    have hok := root_ok hr
    have hin : ∀ m, InC ct .start m ↔ m = r := by
      intro m; simp only [InC, hr, Option.some.injEq]; exact eq_comm
    unfold startMap
    dsimp only
    by_cases hk : n ∈ r.names.map Prod.fst
    · rw [if_pos hk]
      refine ⟨fun _ => ⟨getIds r.names n, rfl, ?_, ?_⟩, fun h => (by cases h)⟩
      · obtain ⟨i, hi⟩ := (keys_has hok n).1 hk
        exact List.ne_nil_of_mem ((getIds_has hok n i).2 hi)
      · intro i
        rw [getIds_has hok]
        constructor
        · intro h; exact ⟨r, (hin r).2 rfl, h⟩
        · rintro ⟨m, h1, h2⟩; rw [(hin m).1 h1] at h2; exact h2
    · rw [if_neg hk]
      refine ⟨fun h => (by cases h), fun _ => ⟨rfl, fun m i h1 h2 => hk ?_⟩⟩
      rw [(hin m).1 h1] at h2
      exact (keys_has hok n).2 ⟨i, h2⟩
  | «at» ps =>
    unfold next atNext
    dsimp only
    have hmem : ∀ i, i ∈ ps.flatMap (fun p => getIds (mapOf (allMaps ct) p).names n) ↔
        ∃ m, InC ct (.at ps) m ∧ Has m.names (n, i) := by
      intro i
      rw [List.mem_flatMap]
      constructor
      · rintro ⟨p, hp, h⟩
        exact ⟨_, ⟨p, hp, rfl⟩, (getIds_has (maps_ok ct p) n i).1 h⟩
      · rintro ⟨m, ⟨p, hp, rfl⟩, h⟩
        exact ⟨p, hp, (getIds_has (maps_ok ct p) n i).2 h⟩
    by_cases he : ps.flatMap (fun p => getIds (mapOf (allMaps ct) p).names n) = []
    · rw [if_pos he]
      refine ⟨fun h => (by cases h), fun _ => ⟨rfl, fun m i h1 h2 => ?_⟩⟩
      have := (hmem i).2 ⟨m, h1, h2⟩
      rw [he] at this
      simp at this
    · rw [if_neg he]
      exact ⟨fun _ => ⟨_, rfl, he, hmem⟩, fun h => (by cases h)⟩
  | fin =>
    exact ⟨fun h => (by cases h), fun _ => ⟨rfl, fun m i h => (by cases h)⟩⟩

/-- The end tag. -/
theorem next_none {ct : Content N} {cp : CP N} (hm : modelOf ct = some cp) (c : Cur) :
    (next ct c none).1 = true ↔ AccC ct c [] := by
  have hacc : AccC ct c [] ↔ ∃ m, InC ct c m ∧ m.fin = true := by
    constructor
    · rintro ⟨m, h1, mv, h2, h3⟩
      have : mv = [] := by simpa using h2
      subst this
      exact ⟨m, h1, h3⟩
    · rintro ⟨m, h1, h2⟩; exact ⟨m, h1, [], rfl, h2⟩
  rw [hacc]
  cases c with
  | start =>
    obtain ⟨r, hr⟩ : ∃ r, rootMap ct = some r := by
      cases ct with
      | any => cases hm
      | empty => cases hm
      | model cp => exact ⟨_, rfl⟩
      | mixed cp => exact ⟨_, rfl⟩
    unfold next startNext
    dsimp only
    simp only [InC, hr, Option.some.injEq]
    unfold startMap
    dsimp only
    cases hf : r.fin with
    | true => exact ⟨fun _ => ⟨r, rfl, hf⟩, fun _ => rfl⟩
    | false =>
      refine ⟨fun h => by simp at h, ?_⟩
      rintro ⟨m, rfl, h2⟩; rw [h2] at hf; cases hf
  | «at» ps =>
    unfold next atNext
    dsimp only
    by_cases he : ps.any (fun p => (mapOf (allMaps ct) p).fin) = true
    · rw [if_pos he]
      refine ⟨fun _ => ?_, fun _ => rfl⟩
      obtain ⟨p, hp, h⟩ := List.any_eq_true.1 he
      exact ⟨_, ⟨p, hp, rfl⟩, h⟩
    · rw [if_neg he]
      refine ⟨fun h => (by cases h), ?_⟩
      rintro ⟨m, ⟨p, hp, rfl⟩, h⟩
      exact absurd (List.any_eq_true.2 ⟨p, hp, h⟩) he
  | fin => exact ⟨fun h => (by cases h), fun ⟨m, h, _⟩ => (by cases h)⟩

theorem accC_cons {ct : Content N} {cp : CP N} (hm : modelOf ct = some cp) (c : Cur) (n : N)
    (v : List N) : AccC ct c (n :: v) ↔
      ((next ct c (some n)).1 = true ∧ AccC ct (next ct c (some n)).2 v) := by
  have hn := next_some hm c n
  constructor
  · rintro ⟨m, h1, mv, h2, h3⟩
    cases mv with
    | nil => simp at h2
    | cons a mv =>
      simp only [List.map_cons, List.cons.injEq] at h2
      obtain ⟨rfl, h2⟩ := h2
      cases hb : (next ct c (some a.1)).1 with
      | false => exact absurd h3.1 ((hn.2 hb).2 m a.2 h1)
      | true =>
        obtain ⟨ps, hps, _, hmem⟩ := hn.1 hb
        refine ⟨rfl, ?_⟩
        rw [hps]
        exact ⟨_, ⟨a.2, (hmem a.2).2 ⟨m, h1, h3.1⟩, rfl⟩, mv, h2, h3.2⟩
  · rintro ⟨hb, h⟩
    obtain ⟨ps, hps, _, hmem⟩ := hn.1 hb
    rw [hps] at h
    obtain ⟨m', ⟨p, hp, rfl⟩, mv, h2, h3⟩ := h
    obtain ⟨m, h4, h5⟩ := (hmem p).1 hp
    exact ⟨m, h4, (n, p) :: mv, by simp [h2], h5, h3⟩

theorem feed_spec {ct : Content N} {cp : CP N} (hm : modelOf ct = some cp) : ∀ (w : List N) (c : Cur),
    (∀ c', feed ct c w = some c' → ∀ v, AccC ct c' v ↔ AccC ct c (w ++ v)) ∧
    (feed ct c w = none → ∀ v, ¬ AccC ct c (w ++ v))
  | [], c => by
    refine ⟨fun c' h v => ?_, fun h => by simp [feed] at h⟩
    simp only [feed, Option.some.injEq] at h
    subst h; rfl
  | n :: w, c => by
    have ih := feed_spec hm w (next ct c (some n)).2
    unfold feed
    by_cases hb : (next ct c (some n)).1 = true
    · rw [if_pos hb]
      refine ⟨fun c' h v => ?_, fun h v hA => ?_⟩
      · rw [ih.1 c' h v, List.cons_append, accC_cons hm]
        exact ⟨fun h => ⟨hb, h⟩, fun h => h.2⟩
      · rw [List.cons_append, accC_cons hm] at hA
        exact ih.2 h v hA.2
    · rw [if_neg hb]
      refine ⟨fun c' h => (by cases h), fun _ v hA => ?_⟩
      rw [List.cons_append, accC_cons hm] at hA
      exact hb hA.1

theorem accC_start {ct : Content N} (hp : Proper ct) {cp : CP N} (hm : modelOf ct = some cp)
    (w : List N) : AccC ct .start w ↔ Allowed cp w := by
  unfold Allowed
  rw [lang_map]
  constructor
  · rintro ⟨m, h1, mv, h2, h3⟩
    exact ⟨mv, (root_acc hp hm h1 mv).1 h3, h2⟩
  · rintro ⟨mv, h1, h2⟩
    obtain ⟨r, hr⟩ : ∃ r, rootMap ct = some r := by
      cases ct with
      | any => cases hm
      | empty => cases hm
      | model cp => exact ⟨_, rfl⟩
      | mixed cp => exact ⟨_, rfl⟩
    exact ⟨r, hr, mv, h2, (root_acc hp hm hr mv).2 h1⟩

/-! ## Every particle is on the way to the end -/

theorem wf_of_proper {ct : Content N} (hp : Proper ct) {cp : CP N} (hm : modelOf ct = some cp) :
    (∃ w, Marked cp w) ∧ (∀ a ∈ cp.parts, ∃ u v, Marked cp (u ++ a :: v)) := by
  cases ct with
  | any => cases hm
  | empty => cases hm
  | model cp' =>
    injection hm with hm; subst hm
    exact ⟨lang_ne _ hp.1, lang_thru _ hp.1⟩
  | mixed cp' =>
    injection hm with hm; subst hm
    obtain ⟨ns, rfl⟩ := hp.1
    refine ⟨⟨[], ?_⟩, fun a ha => ?_⟩
    · unfold Marked; rw [nul_lang]; simp [nul, Occ.required]
    · obtain ⟨u, v, h⟩ := langAny_thru _ (wf_names ns) a (by simpa only [CP.parts] using ha)
      exact ⟨u, v, by simp only [Marked, Lang]; exact occ_sub h⟩

theorem acc_split {mo : Nat → PMap N} : ∀ (u : List (N × Nat)) (m : PMap N) (a : N × Nat)
    (v : List (N × Nat)), Acc mo m (u ++ a :: v) →
      Acc mo (mo a.2) v ∧ ∀ v', Acc mo (mo a.2) v' → Acc mo m (u ++ a :: v')
  | [], _, _, _, h => ⟨h.2, fun _ h' => ⟨h.1, h'⟩⟩
  | b :: u, m, a, v, h => by
    have ih := acc_split u (mo b.2) a v h.2
    exact ⟨ih.1, fun v' h' => ⟨h.1, ih.2 v' h'⟩⟩

theorem root_some {ct : Content N} {cp : CP N} (hm : modelOf ct = some cp) :
    ∃ r, rootMap ct = some r := by
  cases ct with
  | any => cases hm
  | empty => cases hm
  | model cp => exact ⟨_, rfl⟩
  | mixed cp => exact ⟨_, rfl⟩

theorem live {ct : Content N} (hp : Proper ct) {cp : CP N} (hm : modelOf ct = some cp) :
    ∀ a ∈ cp.parts, ∃ v, Acc (mapOf (allMaps ct)) (mapOf (allMaps ct) a.2) v := by
  intro a ha
  obtain ⟨u, v, h⟩ := (wf_of_proper hp hm).2 a ha
  obtain ⟨r, hr⟩ := root_some hm
  exact ⟨v, (acc_split u r a v ((root_acc hp hm hr _).2 h)).1⟩

theorem maps_parts {ct : Content N} {cp : CP N} (hm : modelOf ct = some cp) :
    (∀ r, rootMap ct = some r → ∀ a, Has r.names a → a ∈ cp.parts) ∧
    ∀ i a, Has (mapOf (allMaps ct) i).names a → a ∈ cp.parts := by
  have hseek : ∀ a, Has (seek cp []).1 a → a ∈ cp.parts := by
    intro a h
    rcases ((seek_spec cp []).2.1 a).1 h with h | h
    · exact absurd h (has_nil a)
    · exact first_parts cp a h
  cases ct with
  | any => cases hm
  | empty => cases hm
  | model cp' =>
    injection hm with hm; subst hm
    refine ⟨fun r hr a ha => ?_, fun i a ha => ?_⟩
    · injection hr with hr; subst hr; exact hseek a ha
    · rcases mapOf_cases (allMaps (.model cp')) i with h | h
      · rcases (build_maps cp' _ _ h).2 a ha with h | h
        · exact h
        · exact absurd h (has_nil a)
      · rw [h] at ha; exact absurd ha (has_nil a)
  | mixed cp' =>
    injection hm with hm; subst hm
    refine ⟨fun r hr a ha => ?_, fun i a ha => ?_⟩
    · injection hr with hr; subst hr; exact hseek a ha
    · rcases mapOf_cases (allMaps (.mixed cp')) i with h | h
      · rcases (build_maps cp' _ _ h).2 a ha with h | h
        · exact h
        · exact hseek a h
      · rw [h] at ha; exact absurd ha (has_nil a)

theorem inC_parts {ct : Content N} {cp : CP N} (hm : modelOf ct = some cp) {c : Cur} {m : PMap N}
    (h : InC ct c m) (a : N × Nat) (ha : Has m.names a) : a ∈ cp.parts := by
  cases c with
  | start => exact (maps_parts hm).1 m h a ha
  | «at» ps => obtain ⟨p, _, rfl⟩ := h; exact (maps_parts hm).2 p a ha
  | fin => cases h

theorem feed_live {ct : Content N} (hp : Proper ct) {cp : CP N} (hm : modelOf ct = some cp) :
    ∀ (w : List N) (c c' : Cur), (∃ v, AccC ct c v) → feed ct c w = some c' → ∃ v, AccC ct c' v
  | [], c, c', hl, h => by
    simp only [feed, Option.some.injEq] at h; subst h; exact hl
  | n :: w, c, c', _, h => by
    unfold feed at h
    by_cases hb : (next ct c (some n)).1 = true
    · rw [if_pos hb] at h
      refine feed_live hp hm w _ c' ?_ h
      obtain ⟨ps, hps, hne, hmem⟩ := (next_some hm c n).1 hb
      obtain ⟨p, hpp⟩ := List.exists_mem_of_ne_nil _ hne
      obtain ⟨m, h1, h2⟩ := (hmem p).1 hpp
      obtain ⟨v, hv⟩ := live hp hm (n, p) (inC_parts hm h1 _ h2)
      rw [hps]
      exact ⟨_, _, ⟨p, hpp, rfl⟩, v, rfl, hv⟩
    · rw [if_neg hb] at h; cases h

theorem allowed_some {ct : Content N} (hp : Proper ct) {cp : CP N} (hm : modelOf ct = some cp) :
    ∃ v, AccC ct .start v := by
  obtain ⟨w, hw⟩ := (wf_of_proper hp hm).1
  obtain ⟨r, hr⟩ := root_some hm
  exact ⟨_, r, hr, w, rfl, (root_acc hp hm hr w).2 hw⟩

theorem allows_model {ct : Content N} {cp : CP N} (hm : modelOf ct = some cp) (w : List N) :
    Allows ct w ↔ Allowed cp w := by
  cases ct with
  | any => cases hm
  | empty => cases hm
  | model cp' => injection hm with hm; subst hm; rfl
  | mixed cp' => injection hm with hm; subst hm; rfl

theorem feed_any : ∀ w : List N, feed (.any : Content N) .start w = some .start
  | [] => rfl
  | n :: w => by
    have : feed (.any : Content N) .start (n :: w) = feed .any .start w := by
      simp [feed, next, startNext, rootMap]
    rw [this]; exact feed_any w

/-! ## C75 -/

/-- C75: a validating parser accepts the children of an element, and then its end tag, exactly when
the declaration of the element allows them. -/
theorem C75_accepts (ct : Content N) (hp : Proper ct) (w : List N) :
    accepts ct w = true ↔ Allows ct w := by
  cases hm : modelOf ct with
  | none =>
    cases ct with
    | any => simp [accepts, feed_any, next, startNext, rootMap, Allows]
    | empty =>
      cases w with
      | nil => simp [accepts, feed, next, startNext, rootMap, Allows]
      | cons n w => simp [accepts, feed, next, startNext, rootMap, Allows]
    | model cp => cases hm
    | mixed cp => cases hm
  | some cp =>
    rw [allows_model hm, ← accC_start hp hm]
    have hf := feed_spec hm w .start
    unfold accepts
    cases h : feed ct .start w with
    | none =>
      have := hf.2 h []
      rw [List.append_nil] at this
      simp [this]
    | some c =>
      dsimp only
      rw [next_none hm, hf.1 c h []]
      rw [List.append_nil]

/-- C75: an element is refused as soon as, and only if, no continuation of the children so far could
be allowed. -/
theorem C75_prompt (ct : Content N) (hp : Proper ct) (w : List N) :
    (feed ct .start w).isSome = true ↔ ∃ v, Allows ct (w ++ v) := by
  cases hm : modelOf ct with
  | none =>
    cases ct with
    | any => simp [feed_any, Allows]
    | empty =>
      cases w with
      | nil => simp [feed, Allows]
      | cons n w => simp [feed, next, startNext, rootMap, Allows]
    | model cp => cases hm
    | mixed cp => cases hm
  | some cp =>
    have hf := feed_spec hm w .start
    simp only [allows_model hm, ← accC_start hp hm]
    cases h : feed ct .start w with
    | none =>
      simp only [Option.isSome, Bool.false_eq_true, false_iff]
      rintro ⟨v, hv⟩
      exact hf.2 h v hv
    | some c =>
      simp only [Option.isSome, true_iff]
      obtain ⟨v, hv⟩ := feed_live hp hm w _ c (allowed_some hp hm) h
      exact ⟨v, (hf.1 c h v).1 hv⟩

/-- C75: the names reported as expected after any allowed beginning are exactly those that can come
next, sorted and without duplicates, and the end tag is reported exactly when the content is
complete. -/
theorem C75_expected (le : N → N → Bool) (ct : Content N) (hp : Proper ct) (cp : CP N)
    (hm : modelOf ct = some cp) (w : List N) (c : Cur) (h : feed ct .start w = some c) :
    ∃ ns e, expected le ct c = some (ns, e) ∧ ns.Nodup ∧
      (∀ n, n ∈ ns ↔ ∃ v, Allows ct (w ++ n :: v)) ∧ (e = true ↔ Allows ct w) := by
  have hf := (feed_spec hm w .start).1 c h
  have hkey : ∀ n, (∃ m, InC ct c m ∧ n ∈ m.names.map Prod.fst) ↔ ∃ v, Allows ct (w ++ n :: v) := by
    intro n
    simp only [allows_model hm, ← accC_start hp hm, ← hf]
    constructor
    · rintro ⟨m, h1, h2⟩
      obtain ⟨i, hi⟩ := (keys_has (inC_ok h1) n).1 h2
      obtain ⟨v, hv⟩ := live hp hm (n, i) (inC_parts hm h1 _ hi)
      exact ⟨v.map Prod.fst, m, h1, (n, i) :: v, rfl, hi, hv⟩
    · rintro ⟨v, m, h1, mv, h2, h3⟩
      cases mv with
      | nil => simp at h2
      | cons a mv =>
        simp only [List.map_cons, List.cons.injEq] at h2
        obtain ⟨rfl, _⟩ := h2
        exact ⟨m, h1, (keys_has (inC_ok h1) a.1).2 ⟨a.2, h3.1⟩⟩
  have hend : (∃ m, InC ct c m ∧ m.fin = true) ↔ Allows ct w := by
    rw [allows_model hm, ← accC_start hp hm]
    have := hf []
    rw [List.append_nil] at this
    rw [← this]
    constructor
    · rintro ⟨m, h1, h2⟩; exact ⟨m, h1, [], rfl, h2⟩
    · rintro ⟨m, h1, mv, h2, h3⟩
      have : mv = [] := by simpa using h2
      subst this
      exact ⟨m, h1, h3⟩
  cases c with
  | start =>
    obtain ⟨r, hr⟩ := root_some hm
    refine ⟨_, _, by simp only [expected, hr, Option.map]; rfl, ?_, fun n => ?_, ?_⟩
    · exact (List.mergeSort_perm _ _).nodup_iff.2 (List.nodup_dedup _)
    · rw [← hkey]
      simp only [InC, hr, Option.some.injEq]
      rw [(List.mergeSort_perm _ _).mem_iff, List.mem_dedup]
      constructor
      · intro h; exact ⟨r, rfl, h⟩
      · rintro ⟨m, rfl, h⟩; exact h
    · rw [← hend]
      simp only [InC, hr, Option.some.injEq]
      constructor
      · intro h; exact ⟨r, rfl, h⟩
      · rintro ⟨m, rfl, h⟩; exact h
  | «at» ps =>
    refine ⟨_, _, rfl, ?_, fun n => ?_, ?_⟩
    · exact (List.mergeSort_perm _ _).nodup_iff.2 (List.nodup_dedup _)
    · rw [← hkey, (List.mergeSort_perm _ _).mem_iff, List.mem_dedup, List.mem_flatMap]
      constructor
      · rintro ⟨p, h1, h2⟩; exact ⟨_, ⟨p, h1, rfl⟩, h2⟩
      · rintro ⟨m, ⟨p, h1, rfl⟩, h2⟩; exact ⟨p, h1, h2⟩
    · rw [← hend, List.any_eq_true]
      constructor
      · rintro ⟨p, h1, h2⟩; exact ⟨_, ⟨p, h1, rfl⟩, h2⟩
      · rintro ⟨m, ⟨p, h1, rfl⟩, h2⟩; exact ⟨p, h1, h2⟩
  | fin =>
    refine ⟨[], false, rfl, by simp, fun n => ?_, ?_⟩
    · rw [← hkey]; simp [InC]
    · rw [← hend]; simp [InC]

/-- C75: a refused element leaves the cursor as it was; after the end tag everything is refused. -/
theorem C75_refused (ct : Content N) (c : Cur) (name : Option N) :
    ((next ct c name).1 = false → (next ct c name).2 = c) ∧
    (next ct .fin name).1 = false := by
  refine ⟨?_, rfl⟩
  cases c with
  | start =>
    unfold next startNext
    dsimp only
    split
    · unfold startMap
      split
      · split <;> simp
      · split <;> simp
    all_goals simp
  | «at» ps =>
    unfold next atNext
    dsimp only
    split
    · split <;> simp
    · split <;> simp
  | fin => intro _; rfl

/-- C75: mixed content allows exactly the listed elements, in any number and order. -/
theorem C75_mixed (ns : List (N × Nat)) (hd : (ns.map Prod.snd).Nodup) (w : List N) :
    accepts (.mixed (.choice .star (ns.map fun a => .name a.2 a.1 .once))) w = true ↔
      ∀ n ∈ w, n ∈ ns.map Prod.fst := by
  rw [C75_accepts]
  · simp only [Allows, Allowed, Lang]
    have hany : ∀ (ns : List (N × Nat)) (v : List N),
        LangAny (fun _ n => n) (ns.map fun a => CP.name a.2 a.1 Occ.once) v ↔
          ∃ n ∈ ns.map Prod.fst, v = [n] := by
      intro ns v
      induction ns with
      | nil => simp [LangAny]
      | cons a ns ih =>
        simp only [List.map_cons, LangAny, ih, Lang, Occ.lang]
        simp
    constructor
    · rintro ⟨ws, h1, rfl⟩ n hn
      obtain ⟨v, hv, hnv⟩ := List.mem_flatten.1 hn
      obtain ⟨k, hk, rfl⟩ := (hany ns v).1 (h1 v hv)
      simp at hnv
      subst hnv
      exact hk
    · intro h
      refine ⟨w.map fun n => [n], ?_, ?_⟩
      · intro v hv
        obtain ⟨n, hn, rfl⟩ := List.mem_map.1 hv
        exact (hany ns _).2 ⟨n, h n hn, rfl⟩
      · induction w with
        | nil => rfl
        | cons n w ih => simp [← ih (fun k hk => h k (by simp [hk]))]
  · refine ⟨⟨ns, rfl⟩, ?_⟩
    simp only [CP.Distinct, CP.parts, partsL_names]
    exact hd

/-! ## C76 -/

theorem mapDet_iff {m : PMap N} (h : Ok m.names) :
    mapDet m = true ↔ ∀ n i j, Has m.names (n, i) → Has m.names (n, j) → i = j := by
  unfold mapDet
  rw [List.all_eq_true]
  constructor
  · intro hd n i j ⟨ids, h1, h2⟩ ⟨ids', h3, h4⟩
    have hi := (getIds_has h n i).2 ⟨ids, h1, h2⟩
    have hj := (getIds_has h n j).2 ⟨ids', h3, h4⟩
    have hlen : (getIds m.names n).length ≤ 1 := by
      have : ∀ l : Names N, (∀ p ∈ l, p.2.length ≤ 1) → (getIds l n).length ≤ 1 := by
        intro l
        induction l with
        | nil => simp [getIds]
        | cons q l ih =>
          intro hq
          unfold getIds
          split
          · exact hq q (by simp)
          · exact ih (fun p hp => hq p (by simp [hp]))
      exact this _ (fun p hp => by simpa using hd p hp)
    match hg : getIds m.names n, hi, hj, hlen with
    | [x], hi, hj, _ => simp at hi hj; rw [hi, hj]
    | [], hi, _, _ => simp at hi
    | _ :: _ :: _, _, _, hl => simp at hl
  · intro hd p hp
    have hn := h.nodup p hp
    rw [decide_eq_true_iff]
    match hpp : p.2, hn with
    | [], _ => simp
    | [x], _ => simp
    | x :: y :: l, hn =>
      exfalso
      have := hd p.1 x y ⟨p.2, hp, by rw [hpp]; simp⟩ ⟨p.2, hp, by rw [hpp]; simp⟩
      subst this
      simp at hn

/-- Specification (XML 1.0, appendix E): no beginning of allowed content can be continued with an
element that two different particles match. -/
def Deterministic (cp : CP N) : Prop :=
  ∀ (u : List (N × Nat)) (x y : N × Nat) (v v' : List (N × Nat)),
    Marked cp (u ++ x :: v) → Marked cp (u ++ y :: v') → x.1 = y.1 → x = y

/-- C76: a content model is reported as non-deterministic exactly when it is. -/
theorem C76_deterministic (ct : Content N) (hp : Proper ct) (cp : CP N)
    (hm : modelOf ct = some cp) : isDeterministic ct = true ↔ Deterministic cp := by
  obtain ⟨r, hr⟩ := root_some hm
  have hroot := root_acc hp hm hr
  unfold isDeterministic
  rw [hr]
  simp only [Bool.and_eq_true, List.all_eq_true]
  rw [mapDet_iff (root_ok hr)]
  constructor
  · rintro ⟨h1, h2⟩ u x y v v' hx hy hxy
    have hdet : ∀ i, mapDet (mapOf (allMaps ct) i) = true := by
      intro i
      rcases mapOf_cases (allMaps ct) i with h | h
      · exact h2 _ h
      · rw [h]; rfl
    rw [← hroot] at hx hy
    have key : ∀ (u : List (N × Nat)) (m : PMap N), (∀ n i j, Has m.names (n, i) → Has m.names (n, j) →
        i = j) → Acc (mapOf (allMaps ct)) m (u ++ x :: v) → Acc (mapOf (allMaps ct)) m (u ++ y :: v') →
        x = y := by
      intro u
      induction u with
      | nil =>
        intro m hd hA hB
        have hB' : Has m.names (x.1, y.2) := by rw [hxy]; exact hB.1
        exact Prod.ext hxy (hd x.1 x.2 y.2 hA.1 hB')
      | cons b u ih =>
        intro m _ hA hB
        exact ih _ ((mapDet_iff (maps_ok ct b.2)).1 (hdet b.2)) hA.2 hB.2
    exact key u r h1 hx hy
  · intro hd
    have hmo : ∀ p ∈ allMaps ct, mapOf (allMaps ct) p.1 = p.2 ∧ p.1 ∈ cp.parts.map Prod.snd := by
      have : (allMaps ct).map Prod.fst = cp.parts.map Prod.snd ∧ cp.Distinct := by
        cases ct with
        | any => cases hm
        | empty => cases hm
        | model cp' => injection hm with hm; subst hm; exact ⟨build_ids _ _, hp.2⟩
        | mixed cp' => injection hm with hm; subst hm; exact ⟨build_ids _ _, hp.2⟩
      intro p hpp
      refine ⟨mapOf_mem _ (by rw [this.1]; exact this.2) p hpp, ?_⟩
      rw [← this.1]; exact List.mem_map.2 ⟨p, hpp, rfl⟩
    refine ⟨?_, ?_⟩
    · intro n i j h1 h2
      obtain ⟨v, hv⟩ := live hp hm (n, i) ((maps_parts hm).1 r hr _ h1)
      obtain ⟨v', hv'⟩ := live hp hm (n, j) ((maps_parts hm).1 r hr _ h2)
      have := hd [] (n, i) (n, j) v v' ((hroot _).1 ⟨h1, hv⟩) ((hroot _).1 ⟨h2, hv'⟩) rfl
      exact (Prod.mk.inj this).2
    · intro p hpp
      have hmp := hmo p hpp
      rw [← hmp.1, mapDet_iff (maps_ok ct p.1)]
      intro n i j h1 h2
      obtain ⟨a, ha, hap⟩ := List.mem_map.1 hmp.2
      rw [← hap] at h1 h2
      obtain ⟨u, w, hw⟩ := (wf_of_proper hp hm).2 a ha
      obtain ⟨v, hv⟩ := live hp hm (n, i) ((maps_parts hm).2 _ _ h1)
      obtain ⟨v', hv'⟩ := live hp hm (n, j) ((maps_parts hm).2 _ _ h2)
      have hs := (acc_split u r a w ((hroot _).2 hw)).2
      have e1 := (hroot _).1 (hs ((n, i) :: v) ⟨h1, hv⟩)
      have e2 := (hroot _).1 (hs ((n, j) :: v') ⟨h2, hv'⟩)
      have := hd (u ++ [a]) (n, i) (n, j) v v' (by simpa using e1) (by simpa using e2) rfl
      exact (Prod.mk.inj this).2

/-! ## Examples -/

/-- `((b,d)|(b,e))` (structures.py:2943). -/
def exAmb : CP Nat := .choice .once [.seq .once [.name 0 2 .once, .name 1 4 .once],
  .seq .once [.name 2 2 .once, .name 3 5 .once]]

/-- `(b,(d|e))+`. -/
def exDet : CP Nat := .seq .plus [.name 0 2 .once, .choice .once [.name 1 4 .once, .name 2 5 .opt]]

example : Proper (.model exAmb) ∧ Proper (.model exDet) := by
  refine ⟨⟨?_, ?_⟩, ⟨?_, ?_⟩⟩
  · simp [exAmb, CP.Wf, WfL]
  · unfold CP.Distinct; decide +kernel
  · simp [exDet, CP.Wf, WfL]
  · unfold CP.Distinct; decide +kernel

example : isDeterministic (.model exAmb) = false ∧ accepts (.model exAmb) [2, 5] = true ∧
    isDeterministic (.model exDet) = true ∧ accepts (.model exDet) [2, 4, 2] = true ∧
    accepts (.model exDet) [2, 4, 5] = false := by decide +kernel

end Verif.Xml
