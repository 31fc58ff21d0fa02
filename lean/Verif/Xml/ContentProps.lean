import Verif.Xml.Content

/-! # Proofs for content models -/
namespace Verif.Xml

variable {N : Type} [DecidableEq N]

/-! ## Particle maps -/

/-- A particle is listed under a name. -/
def Has (m : Names N) (a : N × Nat) : Prop := ∃ ids, (a.1, ids) ∈ m ∧ a.2 ∈ ids

theorem has_addId (m : Names N) (n : N) (i : Nat) (a : N × Nat) :
    Has (addId m n i) a ↔ Has m a ∨ a = (n, i) := by
  induction m with
  | nil =>
    constructor
    · rintro ⟨ids, h1, h2⟩
      simp [addId] at h1
      obtain ⟨h1, rfl⟩ := h1
      simp at h2
      exact Or.inr (Prod.ext h1 h2)
    · rintro (⟨_, h, _⟩ | rfl)
      · simp at h
      · exact ⟨[i], by simp [addId], by simp⟩
  | cons p t ih =>
    obtain ⟨m', ids'⟩ := p
    unfold addId
    have hcons : ∀ (q : N × List Nat) (t : Names N),
        Has (q :: t) a ↔ (a.1 = q.1 ∧ a.2 ∈ q.2) ∨ Has t a := by
      intro q t
      constructor
      · rintro ⟨ids, h1, h2⟩
        rcases List.mem_cons.1 h1 with h | h
        · subst h; exact Or.inl ⟨rfl, h2⟩
        · exact Or.inr ⟨ids, h, h2⟩
      · rintro (⟨h1, h2⟩ | ⟨ids, h1, h2⟩)
        · exact ⟨q.2, by rw [h1]; simp, h2⟩
        · exact ⟨ids, by simp [h1], h2⟩
    by_cases h : m' = n
    · rw [if_pos h]
      rw [hcons, hcons]
      subst h
      by_cases hi : i ∈ ids'
      · rw [if_pos hi]
        constructor
        · rintro (h | h)
          · exact Or.inl (Or.inl h)
          · exact Or.inl (Or.inr h)
        · rintro (h | h)
          · exact h
          · subst h; exact Or.inl ⟨rfl, hi⟩
      · rw [if_neg hi]
        simp only [List.mem_append, List.mem_singleton]
        constructor
        · rintro (⟨h1, h2 | h2⟩ | h)
          · exact Or.inl (Or.inl ⟨h1, h2⟩)
          · exact Or.inr (Prod.ext h1 h2)
          · exact Or.inl (Or.inr h)
        · rintro ((⟨h1, h2⟩ | h) | h)
          · exact Or.inl ⟨h1, Or.inl h2⟩
          · exact Or.inr h
          · subst h; exact Or.inl ⟨rfl, Or.inr rfl⟩
    · rw [if_neg h, hcons, hcons, ih]
      constructor
      · rintro (h | h | h)
        · exact Or.inl (Or.inl h)
        · exact Or.inl (Or.inr h)
        · exact Or.inr h
      · rintro ((h | h) | h)
        · exact Or.inl h
        · exact Or.inr (Or.inl h)
        · exact Or.inr (Or.inr h)

omit [DecidableEq N] in
theorem has_nil (a : N × Nat) : ¬ Has ([] : Names N) a := by
  rintro ⟨_, h, _⟩; simp at h

/-- Well-formed maps: a dictionary has each key once, its lists are not empty and have no
duplicates. -/
structure Ok (m : Names N) : Prop where
  keys : (m.map Prod.fst).Nodup
  ne : ∀ p ∈ m, p.2 ≠ []
  nodup : ∀ p ∈ m, p.2.Nodup

omit [DecidableEq N] in
theorem ok_nil : Ok ([] : Names N) := ⟨by simp, by simp, by simp⟩

theorem addId_keys (m : Names N) (n : N) (i : Nat) (k : N) :
    k ∈ (addId m n i).map Prod.fst ↔ k ∈ m.map Prod.fst ∨ k = n := by
  induction m with
  | nil => simp [addId]
  | cons p t ih =>
    obtain ⟨m', ids'⟩ := p
    unfold addId
    by_cases h : m' = n
    · rw [if_pos h]
      simp only [List.map_cons, List.mem_cons]
      subst h
      constructor
      · rintro (h | h)
        · exact Or.inl (Or.inl h)
        · exact Or.inl (Or.inr h)
      · rintro ((h | h) | h)
        · exact Or.inl h
        · exact Or.inr h
        · exact Or.inl h
    · rw [if_neg h]
      simp only [List.map_cons, List.mem_cons, ih]
      rw [or_assoc]

theorem addId_ok {m : Names N} (h : Ok m) (n : N) (i : Nat) : Ok (addId m n i) := by
  induction m with
  | nil => exact ⟨by simp [addId], by simp [addId], by simp [addId]⟩
  | cons p t ih =>
    obtain ⟨m', ids'⟩ := p
    have hk := h.keys
    simp only [List.map_cons, List.nodup_cons] at hk
    have ht : Ok t := ⟨hk.2, fun q hq => h.ne q (by simp [hq]), fun q hq => h.nodup q (by simp [hq])⟩
    unfold addId
    by_cases hn : m' = n
    · rw [if_pos hn]
      refine ⟨h.keys, ?_, ?_⟩
      · intro q hq
        rcases List.mem_cons.1 hq with rfl | hq
        · have := h.ne (m', ids') (by simp)
          dsimp only
          split
          · exact this
          · simp
        · exact ht.ne q hq
      · intro q hq
        rcases List.mem_cons.1 hq with rfl | hq
        · have := h.nodup (m', ids') (by simp)
          dsimp only at this ⊢
          split
          · exact this
          · rename_i hi
            rw [List.nodup_append]
            refine ⟨this, by simp, ?_⟩
            intro a ha b hb
            simp at hb
            subst hb
            rintro rfl
            exact hi ha
        · exact ht.nodup q hq
    · rw [if_neg hn]
      have ih' := ih ht
      refine ⟨?_, ?_, ?_⟩
      · simp only [List.map_cons, List.nodup_cons]
        refine ⟨?_, ih'.keys⟩
        rw [addId_keys]
        rintro (h | h)
        · exact hk.1 h
        · exact hn h
      · intro q hq
        rcases List.mem_cons.1 hq with rfl | hq
        · exact h.ne _ (by simp)
        · exact ih'.ne q hq
      · intro q hq
        rcases List.mem_cons.1 hq with rfl | hq
        · exact h.nodup _ (by simp)
        · exact ih'.nodup q hq

theorem getIds_has {m : Names N} (h : Ok m) (n : N) (i : Nat) :
    i ∈ getIds m n ↔ Has m (n, i) := by
  induction m with
  | nil => simp [getIds, has_nil]
  | cons p t ih =>
    obtain ⟨m', ids'⟩ := p
    have hk := h.keys
    simp only [List.map_cons, List.nodup_cons] at hk
    have ht : Ok t := ⟨hk.2, fun q hq => h.ne q (by simp [hq]), fun q hq => h.nodup q (by simp [hq])⟩
    unfold getIds
    by_cases hn : m' = n
    · rw [if_pos hn]
      subst hn
      constructor
      · intro hi; exact ⟨ids', by simp, hi⟩
      · rintro ⟨ids, h1, h2⟩
        rcases List.mem_cons.1 h1 with h1 | h1
        · injection h1 with _ h1; subst h1; exact h2
        · exact absurd (List.mem_map.2 ⟨_, h1, rfl⟩) hk.1
    · rw [if_neg hn, ih ht]
      constructor
      · rintro ⟨ids, h1, h2⟩; exact ⟨ids, by simp [h1], h2⟩
      · rintro ⟨ids, h1, h2⟩
        rcases List.mem_cons.1 h1 with h1 | h1
        · injection h1 with h1 _; exact absurd h1.symm hn
        · exact ⟨ids, h1, h2⟩

omit [DecidableEq N] in
theorem keys_has {m : Names N} (h : Ok m) (n : N) :
    n ∈ m.map Prod.fst ↔ ∃ i, Has m (n, i) := by
  constructor
  · intro hn
    obtain ⟨p, hp, rfl⟩ := List.mem_map.1 hn
    have := h.ne p hp
    obtain ⟨i, hi⟩ := List.exists_mem_of_ne_nil _ this
    exact ⟨i, p.2, hp, hi⟩
  · rintro ⟨i, ids, h1, _⟩
    exact List.mem_map.2 ⟨_, h1, rfl⟩

theorem fold_addId (n : N) : ∀ (ids : List Nat) (acc : Names N) (a : N × Nat),
    (Has (ids.foldl (fun a i => addId a n i) acc) a ↔ Has acc a ∨ (a.1 = n ∧ a.2 ∈ ids))
  | [], acc, a => by simp
  | i :: ids, acc, a => by
    rw [List.foldl_cons, fold_addId n ids, has_addId]
    simp only [List.mem_cons]
    constructor
    · rintro ((h | h) | h)
      · exact Or.inl h
      · subst h; exact Or.inr ⟨rfl, Or.inl rfl⟩
      · exact Or.inr ⟨h.1, Or.inr h.2⟩
    · rintro (h | ⟨h1, h2 | h2⟩)
      · exact Or.inl (Or.inl h)
      · exact Or.inl (Or.inr (Prod.ext h1 h2))
      · exact Or.inr ⟨h1, h2⟩

theorem fold_addId_ok (n : N) : ∀ (ids : List Nat) (acc : Names N), Ok acc →
    Ok (ids.foldl (fun a i => addId a n i) acc)
  | [], _, h => h
  | i :: ids, acc, h => by
    rw [List.foldl_cons]
    exact fold_addId_ok n ids _ (addId_ok h n i)

theorem fold_all : ∀ (src acc : Names N) (a : N × Nat),
    (Has (src.foldl (fun acc p => p.2.foldl (fun a i => addId a p.1 i) acc) acc) a ↔
      Has acc a ∨ Has src a)
  | [], acc, a => by simp [has_nil]
  | p :: src, acc, a => by
    rw [List.foldl_cons, fold_all src, fold_addId]
    constructor
    · rintro ((h | h) | ⟨ids, h1, h2⟩)
      · exact Or.inl h
      · exact Or.inr ⟨p.2, by rw [h.1]; simp, h.2⟩
      · exact Or.inr ⟨ids, by simp [h1], h2⟩
    · rintro (h | ⟨ids, h1, h2⟩)
      · exact Or.inl (Or.inl h)
      · rcases List.mem_cons.1 h1 with h1 | h1
        · subst h1; exact Or.inl (Or.inr ⟨rfl, h2⟩)
        · exact Or.inr ⟨ids, h1, h2⟩

theorem fold_all_ok : ∀ (src acc : Names N), Ok acc →
    Ok (src.foldl (fun acc p => p.2.foldl (fun a i => addId a p.1 i) acc) acc)
  | [], _, h => h
  | p :: src, acc, h => by
    rw [List.foldl_cons]
    exact fold_all_ok src _ (fold_addId_ok p.1 p.2 acc h)

theorem has_addAll (src dst : PMap N) (a : N × Nat) :
    Has (addAll src dst).names a ↔ Has dst.names a ∨ Has src.names a := fold_all _ _ a

theorem addAll_ok (src dst : PMap N) (h : Ok dst.names) : Ok (addAll src dst).names :=
  fold_all_ok _ _ h

/-! ## Entry particles -/

mutual
/-- Can the particle be skipped? -/
def nul : CP N → Bool
  | .name _ _ occ => !occ.required
  | .choice occ cs => !occ.required || nulAny cs
  | .seq occ cs => !occ.required || nulAll cs
/-- One of them. -/
def nulAny : List (CP N) → Bool
  | [] => false
  | c :: cs => nul c || nulAny cs
/-- All of them. -/
def nulAll : List (CP N) → Bool
  | [] => true
  | c :: cs => nul c && nulAll cs
end

mutual
/-- The particles that can match the first element. -/
def First : CP N → N × Nat → Prop
  | .name i n _, a => a = (n, i)
  | .choice _ cs, a => FirstAny cs a
  | .seq _ cs, a => FirstSeq cs a
/-- Of one of them. -/
def FirstAny : List (CP N) → N × Nat → Prop
  | [], _ => False
  | c :: cs, a => First c a ∨ FirstAny cs a
/-- Of a sequence. -/
def FirstSeq : List (CP N) → N × Nat → Prop
  | [], _ => False
  | c :: cs, a => First c a ∨ (nul c = true ∧ FirstSeq cs a)
end

mutual
theorem seek_spec : ∀ (c : CP N) (m : Names N),
    (seek c m).2 = !nul c ∧ (∀ a, Has (seek c m).1 a ↔ Has m a ∨ First c a) ∧
      (Ok m → Ok (seek c m).1)
  | .name i n occ, m => by
    refine ⟨by simp [seek, nul], fun a => ?_, fun h => ?_⟩
    · simp only [seek, First]; exact has_addId m n i a
    · simp only [seek]; exact addId_ok h n i
  | .choice occ cs, m => by
    obtain ⟨h1, h2, h3⟩ := seekChoice_spec cs m
    refine ⟨?_, fun a => ?_, fun h => ?_⟩
    · simp only [seek, nul, h1]; cases occ.required <;> simp
    · simp only [seek, First]; exact h2 a
    · simp only [seek]; exact h3 h
  | .seq occ cs, m => by
    obtain ⟨h1, h2, h3⟩ := seekSeq_spec cs m
    refine ⟨?_, fun a => ?_, fun h => ?_⟩
    · simp only [seek, nul, h1]; cases occ.required <;> simp
    · simp only [seek, First]; exact h2 a
    · simp only [seek]; exact h3 h
theorem seekChoice_spec : ∀ (cs : List (CP N)) (m : Names N),
    (seekChoice cs m).2 = !nulAny cs ∧ (∀ a, Has (seekChoice cs m).1 a ↔ Has m a ∨ FirstAny cs a) ∧
      (Ok m → Ok (seekChoice cs m).1)
  | [], m => by simp [seekChoice, nulAny, FirstAny]
  | c :: cs, m => by
    obtain ⟨h1, h2, h3⟩ := seek_spec c m
    obtain ⟨g1, g2, g3⟩ := seekChoice_spec cs (seek c m).1
    refine ⟨?_, fun a => ?_, fun h => ?_⟩
    · simp only [seekChoice, nulAny, h1, g1]; simp
    · simp only [seekChoice, FirstAny]; rw [g2, h2, or_assoc]
    · simp only [seekChoice]; exact g3 (h3 h)
theorem seekSeq_spec : ∀ (cs : List (CP N)) (m : Names N),
    (seekSeq cs m).2 = !nulAll cs ∧ (∀ a, Has (seekSeq cs m).1 a ↔ Has m a ∨ FirstSeq cs a) ∧
      (Ok m → Ok (seekSeq cs m).1)
  | [], m => by simp [seekSeq, nulAll, FirstSeq]
  | c :: cs, m => by
    obtain ⟨h1, h2, h3⟩ := seek_spec c m
    obtain ⟨g1, g2, g3⟩ := seekSeq_spec cs (seek c m).1
    unfold seekSeq nulAll FirstSeq
    by_cases hs : (seek c m).2 = true
    · rw [if_pos hs]
      have hn : nul c = false := by rw [h1] at hs; simpa using hs
      refine ⟨by simp [hn], fun a => ?_, h3⟩
      dsimp only
      rw [h2, hn]
      simp
    · rw [if_neg hs]
      have hn : nul c = true := by rw [h1] at hs; simpa using hs
      refine ⟨by rw [g1, hn]; simp, fun a => ?_, fun h => g3 (h3 h)⟩
      rw [g2, h2, hn, or_assoc]
      simp
end

/-! ## The language and its empty word -/

/-- The marking of particles. -/
abbrev mk : Nat → N → N × Nat := fun i n => (n, i)

omit [DecidableEq N] in
theorem occ_nil {α : Type} (occ : Occ) (L : List α → Prop) :
    occ.lang L [] ↔ occ.required = false ∨ L [] := by
  cases occ
  · simp [Occ.lang, Occ.required]
  · simp [Occ.lang, Occ.required]
  · simp only [Occ.lang, Occ.required, true_or, iff_true]
    exact ⟨[], by simp, by simp⟩
  · simp only [Occ.lang, Occ.required]
    constructor
    · rintro ⟨ws, h1, h2, h3⟩
      right
      cases ws with
      | nil => exact absurd rfl h1
      | cons w ws =>
        have : w = [] := by
          have := h3.symm
          simp at this
          exact this.1
        rw [← this]; exact h2 w (by simp)
    · rintro (h | h)
      · cases h
      · exact ⟨[[]], by simp, by simpa using h, by simp⟩

mutual
theorem nul_lang {α : Type} (f : Nat → N → α) : ∀ c : CP N, Lang f c [] ↔ nul c = true
  | .name i n occ => by
    simp only [Lang, nul]; rw [occ_nil]; simp
  | .choice occ cs => by
    simp only [Lang, nul]; rw [occ_nil, nulAny_lang f cs]; simp
  | .seq occ cs => by
    simp only [Lang, nul]; rw [occ_nil, nulAll_lang f cs]; simp
theorem nulAny_lang {α : Type} (f : Nat → N → α) : ∀ cs : List (CP N), LangAny f cs [] ↔ nulAny cs = true
  | [] => by simp [LangAny, nulAny]
  | c :: cs => by simp only [LangAny, nulAny]; rw [nul_lang f c, nulAny_lang f cs]; simp
theorem nulAll_lang {α : Type} (f : Nat → N → α) : ∀ cs : List (CP N), LangSeq f cs [] ↔ nulAll cs = true
  | [] => by simp [LangSeq, nulAll]
  | c :: cs => by
    simp only [LangSeq, nulAll]
    constructor
    · rintro ⟨u, v, h, h1, h2⟩
      obtain ⟨rfl, rfl⟩ := List.append_eq_nil_iff.1 h.symm
      simp [(nul_lang f c).1 h1, (nulAll_lang f cs).1 h2]
    · intro h
      rw [Bool.and_eq_true] at h
      exact ⟨[], [], rfl, (nul_lang f c).2 h.1, (nulAll_lang f cs).2 h.2⟩
end

/-- A repeating particle can be followed by itself. -/
theorem occ_cons {α : Type} {occ : Occ} (L : List α → Prop) (hr : occ.repeats = true) {u v : List α}
    (hu : L u) (hv : occ.lang L v) : occ.lang L (u ++ v) := by
  cases occ
  · cases hr
  · cases hr
  · obtain ⟨ws, h1, rfl⟩ := hv
    exact ⟨u :: ws, by simpa using ⟨hu, h1⟩, by simp⟩
  · obtain ⟨ws, _, h1, rfl⟩ := hv
    exact ⟨u :: ws, by simp, by simpa using ⟨hu, h1⟩, by simp⟩

theorem occ_one {α : Type} {occ : Occ} (L : List α → Prop) {u : List α} (hu : L u) : occ.lang L u := by
  cases occ
  · exact hu
  · exact Or.inr hu
  · exact ⟨[u], by simpa using hu, by simp⟩
  · exact ⟨[u], by simp, by simpa using hu, by simp⟩

/-! ## Runs through the maps -/

/-- A marked word leads from a particle map to the end. -/
def Acc (mo : Nat → PMap N) : PMap N → List (N × Nat) → Prop
  | m, [] => m.fin = true
  | m, a :: w => Has m.names a ∧ Acc mo (mo a.2) w

theorem acc_mono {mo : Nat → PMap N} {m m' : PMap N} (h1 : ∀ a, Has m.names a → Has m'.names a)
    (h2 : m.fin = true → m'.fin = true) : ∀ {w}, Acc mo m w → Acc mo m' w
  | [], h => h2 h
  | a :: _, h => ⟨h1 a h.1, h.2⟩

/-- From sound parts to a sound particle: see `occ_complete` for the converse. -/
theorem occ_sound {mo : Nat → PMap N} {occ : Occ} {F : N × Nat → Prop} {B : List (N × Nat) → Prop}
    {E X : PMap N}
    (hX : ∀ a, Has X.names a → Has E.names a ∨ (occ.repeats = true ∧ F a))
    (hfin : X.fin = true → E.fin = true)
    (hB : ∀ a w, F a → Acc mo (mo a.2) w → ∃ u v, w = u ++ v ∧ B (a :: u) ∧ Acc mo X v) :
    ∀ (k : Nat) (a : N × Nat) (w : List (N × Nat)), w.length ≤ k → F a → Acc mo (mo a.2) w →
      ∃ u v, w = u ++ v ∧ occ.lang B (a :: u) ∧ Acc mo E v := by
  intro k
  induction k with
  | zero =>
    intro a w hw hF hA
    obtain ⟨u, v, rfl, h1, h2⟩ := hB a w hF hA
    have hv : v = [] := by
      cases v with
      | nil => rfl
      | cons b v => simp at hw
    subst hv
    exact ⟨u, [], rfl, occ_one B h1, hfin h2⟩
  | succ k ih =>
    intro a w hw hF hA
    obtain ⟨u, v, rfl, h1, h2⟩ := hB a w hF hA
    cases v with
    | nil => exact ⟨u, [], rfl, occ_one B h1, hfin h2⟩
    | cons b v =>
      rcases hX b h2.1 with h | ⟨hr, hFb⟩
      · exact ⟨u, b :: v, rfl, occ_one B h1, h, h2.2⟩
      · have hlen : v.length ≤ k := by simp at hw; omega
        obtain ⟨u2, v2, rfl, h3, h4⟩ := ih b v hlen hFb h2.2
        refine ⟨u ++ b :: u2, v2, by simp, ?_, h4⟩
        have := occ_cons B hr h1 h3
        simpa using this

theorem star_complete {mo : Nat → PMap N} {F : N × Nat → Prop} {B : List (N × Nat) → Prop}
    {E X : PMap N} (hXE : ∀ a, Has E.names a → Has X.names a) (hfin : E.fin = true → X.fin = true)
    (hXF : ∀ a, F a → Has X.names a)
    (hB : ∀ a u v, B (a :: u) → Acc mo X v → F a ∧ Acc mo (mo a.2) (u ++ v)) :
    ∀ (ws : List (List (N × Nat))) (a : N × Nat) (u v : List (N × Nat)), (∀ w ∈ ws, B w) →
      a :: u = ws.flatten → Acc mo E v → F a ∧ Acc mo (mo a.2) (u ++ v)
  | [], a, u, v, _, h, _ => by simp at h
  | [] :: ws, a, u, v, hall, h, hv =>
    star_complete hXE hfin hXF hB ws a u v (fun w hw => hall w (by simp [hw])) (by simpa using h) hv
  | (b :: u1) :: ws, a, u, v, hall, h, hv => by
    simp only [List.flatten_cons, List.cons_append, List.cons.injEq] at h
    obtain ⟨rfl, rfl⟩ := h
    have hb := hall (a :: u1) (by simp)
    rw [List.append_assoc]
    apply hB a u1 _ hb
    cases hr : ws.flatten with
    | nil => exact acc_mono hXE hfin hv
    | cons c r =>
      have := star_complete hXE hfin hXF hB ws c r v (fun w hw => hall w (by simp [hw])) hr.symm hv
      exact ⟨hXF c this.1, this.2⟩

theorem occ_complete {mo : Nat → PMap N} {occ : Occ} {F : N × Nat → Prop} {B : List (N × Nat) → Prop}
    {E X : PMap N} (hXE : ∀ a, Has E.names a → Has X.names a) (hfin : E.fin = true → X.fin = true)
    (hXF : occ.repeats = true → ∀ a, F a → Has X.names a)
    (hB : ∀ a u v, B (a :: u) → Acc mo X v → F a ∧ Acc mo (mo a.2) (u ++ v))
    (a : N × Nat) (u v : List (N × Nat)) (h : occ.lang B (a :: u)) (hv : Acc mo E v) :
    F a ∧ Acc mo (mo a.2) (u ++ v) := by
  cases occ with
  | once => exact hB a u v h (acc_mono hXE hfin hv)
  | opt =>
    rcases h with h | h
    · cases h
    · exact hB a u v h (acc_mono hXE hfin hv)
  | star =>
    obtain ⟨ws, h1, h2⟩ := h
    exact star_complete hXE hfin (hXF rfl) hB ws a u v h1 h2 hv
  | plus =>
    obtain ⟨ws, _, h1, h2⟩ := h
    exact star_complete hXE hfin (hXF rfl) hB ws a u v h1 h2 hv

theorem newExit_has (cp : CP N) (occ : Occ) (E : PMap N) (a : N × Nat) :
    Has (newExit cp occ E).names a ↔ Has E.names a ∨ (occ.repeats = true ∧ First cp a) := by
  unfold newExit
  rw [has_addAll]
  cases hr : occ.repeats
  · simp [has_nil]
  · simp only [if_true, true_and]
    rw [(seek_spec cp []).2.1]
    simp [has_nil, or_comm]

theorem newExit_fin (cp : CP N) (occ : Occ) (E : PMap N) : (newExit cp occ E).fin = E.fin := by
  simp [newExit, addAll]

theorem childExits_has (cs : List (CP N)) (E : PMap N) (a : N × Nat) :
    Has (childExits cs E).names a ↔ FirstSeq cs a ∨ (nulAll cs = true ∧ Has E.names a) := by
  unfold childExits
  rw [(seekSeq_spec cs []).1]
  cases h : nulAll cs
  · simp [(seekSeq_spec cs []).2.1, has_nil]
  · simp [has_addAll, (seekSeq_spec cs []).2.1, has_nil]

theorem childExits_fin (cs : List (CP N)) (E : PMap N) :
    (childExits cs E).fin = true ↔ nulAll cs = true ∧ E.fin = true := by
  unfold childExits
  rw [(seekSeq_spec cs []).1]
  cases h : nulAll cs <;> simp [addAll]

mutual
theorem sound : ∀ (c : CP N) (E : PMap N) (mo : Nat → PMap N), (∀ p ∈ build c E, mo p.1 = p.2) →
    ∀ a w, First c a → Acc mo (mo a.2) w → ∃ u v, w = u ++ v ∧ Marked c (a :: u) ∧ Acc mo E v
  | .name i n occ, E, mo, hmo => by
    intro a w hF hA
    have hX : mo i = newExit (.name i n occ) occ E :=
      hmo (i, newExit (.name i n occ) occ E) (by simp [build])
    have := occ_sound (mo := mo) (occ := occ) (F := First (.name i n occ))
      (B := fun v => v = [(n, i)]) (E := E) (X := newExit (.name i n occ) occ E)
      (fun a h => (newExit_has _ _ _ a).1 h) (fun h => by rw [newExit_fin] at h; exact h)
      (fun a w hF hA => by
        simp only [First] at hF
        subst hF
        refine ⟨[], w, rfl, rfl, ?_⟩
        rw [← hX]; exact hA)
      w.length a w (Nat.le_refl _) hF hA
    exact this
  | .choice occ cs, E, mo, hmo => by
    intro a w hF hA
    have := occ_sound (mo := mo) (occ := occ) (F := First (.choice occ cs))
      (B := LangAny mk cs) (E := E) (X := newExit (.choice occ cs) occ E)
      (fun a h => (newExit_has _ _ _ a).1 h) (fun h => by rw [newExit_fin] at h; exact h)
      (fun a w hF hA => soundAny cs _ mo (fun p hp => hmo p (by simp only [build]; exact hp)) a w
        (by simpa only [First] using hF) hA)
      w.length a w (Nat.le_refl _) hF hA
    exact this
  | .seq occ cs, E, mo, hmo => by
    intro a w hF hA
    have := occ_sound (mo := mo) (occ := occ) (F := First (.seq occ cs))
      (B := LangSeq mk cs) (E := E) (X := newExit (.seq occ cs) occ E)
      (fun a h => (newExit_has _ _ _ a).1 h) (fun h => by rw [newExit_fin] at h; exact h)
      (fun a w hF hA => soundSeq cs _ mo (fun p hp => hmo p (by simp only [build]; exact hp)) a w
        (by simpa only [First] using hF) hA)
      w.length a w (Nat.le_refl _) hF hA
    exact this
theorem soundAny : ∀ (cs : List (CP N)) (E : PMap N) (mo : Nat → PMap N),
    (∀ p ∈ buildChoice cs E, mo p.1 = p.2) →
    ∀ a w, FirstAny cs a → Acc mo (mo a.2) w →
      ∃ u v, w = u ++ v ∧ LangAny mk cs (a :: u) ∧ Acc mo E v
  | [], E, mo, _ => by intro a w h; simp [FirstAny] at h
  | c :: cs, E, mo, hmo => by
    intro a w hF hA
    simp only [FirstAny] at hF
    rcases hF with hF | hF
    · obtain ⟨u, v, h1, h2, h3⟩ := sound c E mo (fun p hp => hmo p (by simp [buildChoice, hp])) a w hF hA
      exact ⟨u, v, h1, by simp only [LangAny]; exact Or.inl h2, h3⟩
    · obtain ⟨u, v, h1, h2, h3⟩ := soundAny cs E mo (fun p hp => hmo p (by simp [buildChoice, hp])) a w hF hA
      exact ⟨u, v, h1, by simp only [LangAny]; exact Or.inr h2, h3⟩
theorem soundSeq : ∀ (cs : List (CP N)) (E : PMap N) (mo : Nat → PMap N),
    (∀ p ∈ buildSeq cs E, mo p.1 = p.2) →
    ∀ a w, FirstSeq cs a → Acc mo (mo a.2) w →
      ∃ u v, w = u ++ v ∧ LangSeq mk cs (a :: u) ∧ Acc mo E v
  | [], E, mo, _ => by intro a w h; simp [FirstSeq] at h
  | c :: cs, E, mo, hmo => by
    intro a w hF hA
    have ih2 := soundSeq cs E mo (fun p hp => hmo p (by simp [buildSeq, hp]))
    simp only [FirstSeq] at hF
    rcases hF with hF | ⟨hn, hF⟩
    · obtain ⟨u, v, rfl, h2, h3⟩ := sound c (childExits cs E) mo
        (fun p hp => hmo p (by simp [buildSeq, hp])) a w hF hA
      cases v with
      | nil =>
        have hf := (childExits_fin cs E).1 h3
        exact ⟨u, [], rfl, ⟨a :: u, [], by simp, h2, (nulAll_lang mk cs).2 hf.1⟩, hf.2⟩
      | cons b v =>
        rcases (childExits_has cs E b).1 h3.1 with h | ⟨h, h'⟩
        · obtain ⟨u2, v2, rfl, h4, h5⟩ := ih2 b v h h3.2
          exact ⟨u ++ b :: u2, v2, by simp, ⟨a :: u, b :: u2, by simp, h2, h4⟩, h5⟩
        · exact ⟨u, b :: v, rfl, ⟨a :: u, [], by simp, h2, (nulAll_lang mk cs).2 h⟩, h', h3.2⟩
    · obtain ⟨u, v, h1, h2, h3⟩ := ih2 a w hF hA
      exact ⟨u, v, h1, ⟨[], a :: u, rfl, (nul_lang mk c).2 hn, h2⟩, h3⟩
end

mutual
theorem complete : ∀ (c : CP N) (E : PMap N) (mo : Nat → PMap N), (∀ p ∈ build c E, mo p.1 = p.2) →
    ∀ a u v, Marked c (a :: u) → Acc mo E v → First c a ∧ Acc mo (mo a.2) (u ++ v)
  | .name i n occ, E, mo, hmo => by
    intro a u v hL hA
    have hX : mo i = newExit (.name i n occ) occ E :=
      hmo (i, newExit (.name i n occ) occ E) (by simp [build])
    exact occ_complete (mo := mo) (occ := occ) (F := First (.name i n occ))
      (B := fun v => v = [(n, i)]) (E := E) (X := newExit (.name i n occ) occ E)
      (fun a h => (newExit_has _ _ _ a).2 (Or.inl h)) (fun h => by rw [newExit_fin]; exact h)
      (fun hr a h => (newExit_has _ _ _ a).2 (Or.inr ⟨hr, h⟩))
      (fun a u v hL hA => by
        simp only [List.cons.injEq] at hL
        obtain ⟨rfl, rfl⟩ := hL
        refine ⟨by simp [First], ?_⟩
        dsimp only
        rw [hX]; exact hA)
      a u v hL hA
  | .choice occ cs, E, mo, hmo => by
    intro a u v hL hA
    exact occ_complete (mo := mo) (occ := occ) (F := First (.choice occ cs))
      (B := LangAny mk cs) (E := E) (X := newExit (.choice occ cs) occ E)
      (fun a h => (newExit_has _ _ _ a).2 (Or.inl h)) (fun h => by rw [newExit_fin]; exact h)
      (fun hr a h => (newExit_has _ _ _ a).2 (Or.inr ⟨hr, h⟩))
      (fun a u v hL hA => by
        simp only [First]
        exact completeAny cs _ mo (fun p hp => hmo p (by simp only [build]; exact hp)) a u v hL hA)
      a u v hL hA
  | .seq occ cs, E, mo, hmo => by
    intro a u v hL hA
    exact occ_complete (mo := mo) (occ := occ) (F := First (.seq occ cs))
      (B := LangSeq mk cs) (E := E) (X := newExit (.seq occ cs) occ E)
      (fun a h => (newExit_has _ _ _ a).2 (Or.inl h)) (fun h => by rw [newExit_fin]; exact h)
      (fun hr a h => (newExit_has _ _ _ a).2 (Or.inr ⟨hr, h⟩))
      (fun a u v hL hA => by
        simp only [First]
        exact completeSeq cs _ mo (fun p hp => hmo p (by simp only [build]; exact hp)) a u v hL hA)
      a u v hL hA
theorem completeAny : ∀ (cs : List (CP N)) (E : PMap N) (mo : Nat → PMap N),
    (∀ p ∈ buildChoice cs E, mo p.1 = p.2) →
    ∀ a u v, LangAny mk cs (a :: u) → Acc mo E v → FirstAny cs a ∧ Acc mo (mo a.2) (u ++ v)
  | [], E, mo, _ => by intro a u v h; simp [LangAny] at h
  | c :: cs, E, mo, hmo => by
    intro a u v hL hA
    simp only [LangAny] at hL
    simp only [FirstAny]
    rcases hL with hL | hL
    · have := complete c E mo (fun p hp => hmo p (by simp [buildChoice, hp])) a u v hL hA
      exact ⟨Or.inl this.1, this.2⟩
    · have := completeAny cs E mo (fun p hp => hmo p (by simp [buildChoice, hp])) a u v hL hA
      exact ⟨Or.inr this.1, this.2⟩
theorem completeSeq : ∀ (cs : List (CP N)) (E : PMap N) (mo : Nat → PMap N),
    (∀ p ∈ buildSeq cs E, mo p.1 = p.2) →
    ∀ a u v, LangSeq mk cs (a :: u) → Acc mo E v → FirstSeq cs a ∧ Acc mo (mo a.2) (u ++ v)
  | [], E, mo, _ => by intro a u v h; simp [LangSeq] at h
  | c :: cs, E, mo, hmo => by
    intro a u v hL hA
    have ih2 := completeSeq cs E mo (fun p hp => hmo p (by simp [buildSeq, hp]))
    simp only [LangSeq] at hL
    obtain ⟨x, y, hxy, h1, h2⟩ := hL
    simp only [FirstSeq]
    cases x with
    | nil =>
      simp only [List.nil_append] at hxy
      subst hxy
      have := ih2 a u v h2 hA
      exact ⟨Or.inr ⟨(nul_lang mk c).1 h1, this.1⟩, this.2⟩
    | cons b x =>
      simp only [List.cons_append, List.cons.injEq] at hxy
      obtain ⟨rfl, rfl⟩ := hxy
      rw [List.append_assoc]
      have hexit : Acc mo (childExits cs E) (y ++ v) := by
        cases y with
        | nil =>
          have hn := (nulAll_lang mk cs).1 h2
          exact acc_mono (fun a h => (childExits_has cs E a).2 (Or.inr ⟨hn, h⟩))
            (fun h => (childExits_fin cs E).2 ⟨hn, h⟩) hA
        | cons d y =>
          have := ih2 d y v h2 hA
          exact ⟨(childExits_has cs E d).2 (Or.inl this.1), this.2⟩
      have := complete c (childExits cs E) mo (fun p hp => hmo p (by simp [buildSeq, hp])) a x
        (y ++ v) h1 hexit
      exact ⟨Or.inl this.1, this.2⟩
end

end Verif.Xml
