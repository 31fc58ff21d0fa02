import Verif.Json.Entity
import Verif.Json.ValueProps
/-!
# The JSON form of entities: specification and proofs
-/
namespace Verif.Json
open Verif.Text Verif.OData

/-! ## Specification: the JSON value an entity stands for -/

/-- Text without surrogate codes. -/
def Plains (s : Str) : Prop := ∀ c ∈ s, Scalar c

mutual
/-- Every simple value in it is one that can be read back, and no two fields of a complex value have the same name. -/
def PVPlain : PV → Prop
  | .simple k v => Plain k v
  | .complex fs => FieldsPlain fs
def FieldsPlain : List (Str × PV) → Prop
  | [] => True
  | (k, v) :: r => Plains k ∧ k ∉ r.map (·.1) ∧ PVPlain v ∧ FieldsPlain r
end

mutual
/-- A complex value stands for the object with one member for each field. -/
inductive PVDen : PV → J → Prop
  | simple {k v j} : Denotes v j → PVDen (.simple k v) j
  | complex {fs ms} : FieldsDen fs ms → PVDen (.complex fs) (.obj ms)
inductive FieldsDen : List (Str × PV) → List (Str × J) → Prop
  | nil : FieldsDen [] []
  | cons {k v j r ms} : PVDen v j → FieldsDen r ms → FieldsDen ((k, v) :: r) ((k, j) :: ms)
end

/-- The members of `__metadata` for a media link entry. -/
def mediaJ (loc : Str) (etag : Option Str) : Option Str → List (Str × J)
  | some ct => [(chars "media_src", .str (loc ++ chars "/$value")), (chars "content_type", .str ct), (chars "edit_media", .str (loc ++ chars "/$value"))]
      ++ (etag.toList.map fun e => (chars "media_etag", .str e))
  | none => []

/-- The members of `__metadata`. -/
def metaJ (loc ty : Str) (etag media : Option Str) : List (Str × J) :=
  [(chars "uri", .str loc), (chars "type", .str ty)] ++ (etag.toList.map fun e => (chars "etag", .str e)) ++ mediaJ loc etag media

/-- A page of a collection: an array in version 1, an object in version 2. -/
def collJ (v2 : Bool) (count : Option Nat) (es : List J) (next : Option Str) : J :=
  if v2 then .obj ((count.toList.map fun n : Nat => (chars "__count", J.num n)) ++ (chars "results", .arr es) ::
    (next.toList.map fun u => (chars "__next", J.obj [(chars "uri", .str u)])))
  else .arr es

/-- The data properties: one member for each one that is selected. -/
inductive DataDen : List (Str × Bool × PV) → List (Str × J) → Prop
  | nil : DataDen [] []
  | skip {k v r ms} : DataDen r ms → DataDen ((k, false, v) :: r) ms
  | cons {k v j r ms} : PVDen v j → DataDen r ms → DataDen ((k, true, v) :: r) ((k, j) :: ms)

mutual
/-- An existing entity. -/
inductive EntDen (v2 : Bool) : Ent → J → Prop
  | mk {loc ty etag media data nav ds ns} : DataDen data ds → NavsDen v2 loc nav ns →
      EntDen v2 (.mk loc ty etag media data nav) (.obj ((chars "__metadata", .obj (metaJ loc ty etag media)) :: (ds ++ ns)))
/-- The navigation properties: one member for each one that is selected. -/
inductive NavsDen (v2 : Bool) : Str → List (Str × Bool × Nav) → List (Str × J) → Prop
  | nil {loc} : NavsDen v2 loc [] []
  | skip {loc k n r ms} : NavsDen v2 loc r ms → NavsDen v2 loc ((k, false, n) :: r) ms
  | cons {loc k n j r ms} : NavDen v2 loc k n j → NavsDen v2 loc r ms → NavsDen v2 loc ((k, true, n) :: r) ((k, j) :: ms)
/-- A navigation property: a deferred link to `location/name`, null, an entity or a page. -/
inductive NavDen (v2 : Bool) : Str → Str → Nav → J → Prop
  | deferred {loc k} : NavDen v2 loc k .deferred (.obj [(chars "__deferred", .obj [(chars "uri", .str (loc ++ 47 :: k))])])
  | empty {loc k} : NavDen v2 loc k .empty .null
  | one {loc k e j} : EntDen v2 e j → NavDen v2 loc k (.one e) j
  | many {loc k count es next js} : EntsDen v2 es js → NavDen v2 loc k (.many count es next) (collJ v2 count js next)
inductive EntsDen (v2 : Bool) : List Ent → List J → Prop
  | nil : EntsDen v2 [] []
  | cons {e j r js} : EntDen v2 e j → EntsDen v2 r js → EntsDen v2 (e :: r) (j :: js)
end

/-- The data properties are plain. -/
def DataPlain (l : List (Str × Bool × PV)) : Prop := ∀ x ∈ l, Plains x.1 ∧ PVPlain x.2.2

mutual
/-- All the text of an entity is without surrogate codes, and its values are plain. -/
def EntPlain : Ent → Prop
  | .mk loc ty etag media data nav => Plains loc ∧ Plains ty ∧ (∀ e, etag = some e → Plains e) ∧ (∀ e, media = some e → Plains e) ∧ DataPlain data ∧ NavsPlain nav
def NavsPlain : List (Str × Bool × Nav) → Prop
  | [] => True
  | (k, _, n) :: r => Plains k ∧ NavPlain n ∧ NavsPlain r
def NavPlain : Nav → Prop
  | .deferred => True
  | .empty => True
  | .one e => EntPlain e
  | .many _ es next => EntsPlain es ∧ ∀ u, next = some u → Plains u
def EntsPlain : List Ent → Prop
  | [] => True
  | e :: r => EntPlain e ∧ EntsPlain r
end

/-! ## Values -/

mutual
/-- The type of a value. -/
def PV.ty : PV → PTy
  | .simple k _ => .simple k
  | .complex fs => .complex (fieldsTy fs)
def fieldsTy : List (Str × PV) → List (Str × PTy)
  | [] => []
  | (k, v) :: r => (k, v.ty) :: fieldsTy r
end

mutual
/-- What is read back from the text of a value. -/
def PV.back : PV → PV
  | .simple k v => .simple k (Json.back v)
  | .complex fs => .complex (fieldsBack fs)
def fieldsBack : List (Str × PV) → List (Str × PV)
  | [] => []
  | (k, v) :: r => (k, v.back) :: fieldsBack r
end

theorem get_cons_ne {k k' : Str} {j : J} {m : List (Str × J)} (h : k' ≠ k) : J.get? ((k', j) :: m) k = J.get? m k := by
  unfold J.get?
  rw [List.reverse_cons, List.find?_append]
  have : List.find? (fun x : Str × J => x.1 == k) [(k', j)] = none := by simp [h]
  rw [this, Option.or_none]

theorem get_none {k : Str} {m : List (Str × J)} (h : k ∉ m.map (·.1)) : J.get? m k = none := by
  unfold J.get?
  rw [List.find?_eq_none.2]
  · rfl
  · intro x hx
    simp only [List.mem_reverse] at hx
    simp only [beq_iff_eq]
    rintro rfl
    exact h (List.mem_map.2 ⟨x, hx, rfl⟩)

theorem get_cons_self {k : Str} {j : J} {m : List (Str × J)} (h : k ∉ m.map (·.1)) : J.get? ((k, j) :: m) k = some j := by
  have hn := get_none h
  unfold J.get? at *
  rw [List.reverse_cons, List.find?_append]
  cases hf : List.find? (fun x : Str × J => x.1 == k) m.reverse with
  | some x => rw [hf] at hn; cases hn
  | none => simp

theorem get_of_mem {k : Str} {j : J} : ∀ {m : List (Str × J)}, (m.map (·.1)).Nodup → (k, j) ∈ m → J.get? m k = some j := by
  intro m
  induction m with
  | nil => intro _ h; simp at h
  | cons x m ih =>
    intro hn h
    rw [List.map_cons, List.nodup_cons] at hn
    rcases List.mem_cons.1 h with rfl | h
    · exact get_cons_self hn.1
    · have : x.1 ≠ k := by
        rintro rfl
        exact hn.1 (List.mem_map.2 ⟨_, h, rfl⟩)
      rw [show x = (x.1, x.2) from rfl, get_cons_ne this]
      exact ih hn.2 h

theorem fieldsDen_keys {fs : List (Str × PV)} : ∀ {ms}, FieldsDen fs ms → ms.map (·.1) = fs.map (·.1) := by
  induction fs with
  | nil => intro ms h; cases h; rfl
  | cons x fs ih => intro ms h; cases h with | cons _ h => simp [ih h]

theorem fieldsPlain_nodup {fs : List (Str × PV)} (h : FieldsPlain fs) : (fs.map (·.1)).Nodup := by
  induction fs with
  | nil => simp
  | cons x fs ih =>
    rw [FieldsPlain] at h
    rw [List.map_cons, List.nodup_cons]
    exact ⟨h.2.1, ih h.2.2.2⟩

mutual
/-- A plain value is written as the text of the object it stands for and read back from that. -/
theorem pv_written : ∀ (v : PV), PVPlain v → ∃ t j, pvJson v = some t ∧ PVDen v j ∧ Reads t j ∧ pvFrom v.ty j = some v.back
  | .simple k v, h => by
    rw [PVPlain] at h
    obtain ⟨t, j, h1, h2, h3, h4⟩ := val_written h
    refine ⟨t, j, by rw [pvJson]; exact h1, .simple h2, h3, ?_⟩
    rw [PV.ty, pvFrom, h4, PV.back]; rfl
  | .complex fs, h => by
    rw [PVPlain] at h
    obtain ⟨ts, l, h1, h2, h3, h4, h5⟩ := fields_written fs h
    refine ⟨123 :: commas ts ++ [125], .obj (l.map (·.2)), by rw [pvJson, h1]; rfl, .complex h4, ?_, ?_⟩
    · rw [h2]; exact reads_obj l h3
    · rw [PV.ty, pvFrom, h5 _ ?_, PV.back]; rfl
      intro x hx
      refine get_of_mem ?_ hx
      rw [fieldsDen_keys h4]
      exact fieldsPlain_nodup h
theorem fields_written : ∀ (fs : List (Str × PV)), FieldsPlain fs → ∃ (ts : List Str) (l : List (Str × Str × J)), fieldsJson fs = some ts ∧
    ts = l.map (·.1) ∧ (∀ x ∈ l, Member x.1 x.2.1 x.2.2) ∧ FieldsDen fs (l.map (·.2)) ∧
    ∀ m : List (Str × J), (∀ x ∈ l.map (·.2), J.get? m x.1 = some x.2) → fieldsFrom (fieldsTy fs) m = some (fieldsBack fs)
  | [], _ => ⟨[], [], rfl, rfl, by simp, .nil, fun m _ => rfl⟩
  | (k, v) :: r, h => by
    rw [FieldsPlain] at h
    obtain ⟨t, j, p1, p2, p3, p4⟩ := pv_written v h.2.2.1
    obtain ⟨ts, l, h1, h2, h3, h4, h5⟩ := fields_written r h.2.2.2
    refine ⟨(dumps k ++ 58 :: t) :: ts, (dumps k ++ 58 :: t, k, j) :: l, ?_, by rw [h2]; rfl, ?_, .cons p2 h4, ?_⟩
    · rw [fieldsJson, p1, h1]; rfl
    · intro x hx
      rcases List.mem_cons.1 hx with rfl | hx
      · exact member_plain h.1 p3
      · exact h3 x hx
    · intro m hm
      rw [fieldsTy]
      have hj := hm (k, j) (by simp)
      dsimp only at hj
      simp only [fieldsFrom, hj]
      rw [p4, h5 m (fun x hx => hm x (by rw [List.map_cons]; exact List.mem_cons_of_mem _ hx))]
      rfl
end

/-! ## Members after a comma -/

/-- The text is members, each after a comma. -/
def Tail (t : Str) (ms : List (Str × J)) : Prop :=
  ∃ l : List (Str × Str × J), t = l.flatMap (fun x => 44 :: x.1) ∧ (∀ x ∈ l, Member x.1 x.2.1 x.2.2) ∧ l.map (·.2) = ms

theorem Tail.nil : Tail [] [] := ⟨[], rfl, by simp, rfl⟩

theorem Tail.append {t u : Str} {ms ns : List (Str × J)} (h : Tail t ms) (h' : Tail u ns) : Tail (t ++ u) (ms ++ ns) := by
  obtain ⟨l, rfl, h1, rfl⟩ := h
  obtain ⟨l', rfl, h1', rfl⟩ := h'
  refine ⟨l ++ l', by simp, ?_, by simp⟩
  intro x hx
  rcases List.mem_append.1 hx with hx | hx
  · exact h1 x hx
  · exact h1' x hx

theorem Tail.single {t k : Str} {j : J} (h : Member t k j) : Tail (44 :: t) [(k, j)] :=
  ⟨[(t, k, j)], by simp, by simpa using h, rfl⟩

theorem commas_flat (t : Str) (ts : List Str) : commas (t :: ts) = t ++ ts.flatMap (44 :: ·) := by
  induction ts generalizing t with
  | nil => simp [commas]
  | cons u ts ih => rw [commas_cons, ih u]; simp

theorem reads_tail {t0 k0 t : Str} {j0 : J} {ms : List (Str × J)} (h0 : Member t0 k0 j0) (h : Tail t ms) :
    Reads (123 :: (t0 ++ t ++ [125])) (.obj ((k0, j0) :: ms)) := by
  obtain ⟨l, rfl, h1, rfl⟩ := h
  have := reads_obj ((t0, k0, j0) :: l) (by
    intro x hx
    rcases List.mem_cons.1 hx with rfl | hx
    · exact h0
    · exact h1 x hx)
  rw [List.map_cons, commas_flat] at this
  simpa [List.flatMap_map] using this

/-- A member whose name and colon are given as text. -/
theorem member_lit {pre k body : Str} {j : J} (hp : pre = dumps k ++ [58]) (hk : Plains k) (h : Reads body j) : Member (pre ++ body) k j := by
  rw [hp, List.append_assoc]
  exact member_plain hk h

theorem plains_lit {k : Str} (h : k.all (· < 128) = true) : Plains k := by
  intro c hc
  have := List.all_eq_true.1 h c hc
  exact scalar_ascii (by simpa using this)

theorem plains_append {a b : Str} (h : Plains a) (h' : Plains b) : Plains (a ++ b) := by
  intro c hc
  rcases List.mem_append.1 hc with hc | hc
  · exact h c hc
  · exact h' c hc

theorem tail_lit {pre k body : Str} {j : J} (hp : pre = 44 :: (dumps k ++ [58])) (hk : Plains k) (h : Reads body j) : Tail (pre ++ body) [(k, j)] := by
  rw [hp]
  exact Tail.single (member_lit rfl hk h)

theorem meta_reads (loc ty : Str) (etag media : Option Str) (h1 : Plains loc) (h2 : Plains ty) (h3 : ∀ e, etag = some e → Plains e)
    (h4 : ∀ e, media = some e → Plains e) : Reads (123 :: (metaText loc ty etag media ++ [125])) (.obj (metaJ loc ty etag media)) := by
  have hv : Plains (loc ++ chars "/$value") := plains_append h1 (plains_lit (by decide +kernel))
  have m0 : Member (chars "\"uri\":" ++ dumps loc) (chars "uri") (.str loc) :=
    member_lit (by decide +kernel) (plains_lit (by decide +kernel)) (reads_str loc h1)
  have t1 : Tail (chars ",\"type\":" ++ dumps ty) [(chars "type", .str ty)] := tail_lit (by decide +kernel) (plains_lit (by decide +kernel)) (reads_str ty h2)
  have t2 : Tail (optText (chars ",\"etag\":") etag) (etag.toList.map fun e => (chars "etag", J.str e)) := by
    cases etag with
    | none => exact Tail.nil
    | some e => exact tail_lit (by decide +kernel) (plains_lit (by decide +kernel)) (reads_str e (h3 e rfl))
  have t3 : Tail (optText (chars ",\"media_etag\":") etag) (etag.toList.map fun e => (chars "media_etag", J.str e)) := by
    cases etag with
    | none => exact Tail.nil
    | some e => exact tail_lit (by decide +kernel) (plains_lit (by decide +kernel)) (reads_str e (h3 e rfl))
  have t4 : Tail (mediaText loc etag media) (mediaJ loc etag media) := by
    cases media with
    | none => exact Tail.nil
    | some ct =>
      have a := tail_lit (pre := chars ",\"media_src\":") (k := chars "media_src") (by decide +kernel) (plains_lit (by decide +kernel)) (reads_str _ hv)
      have b := tail_lit (pre := chars ",\"content_type\":") (k := chars "content_type") (by decide +kernel) (plains_lit (by decide +kernel)) (reads_str _ (h4 ct rfl))
      have c := tail_lit (pre := chars ",\"edit_media\":") (k := chars "edit_media") (by decide +kernel) (plains_lit (by decide +kernel)) (reads_str _ hv)
      exact ((a.append b).append c).append t3
  have := reads_tail m0 ((t1.append t2).append t4)
  unfold metaText metaJ
  simpa [List.append_assoc] using this

theorem data_written : ∀ (data : List (Str × Bool × PV)), DataPlain data → ∃ t ms, dataText data = some t ∧ DataDen data ms ∧ Tail t ms ∧
    (∀ x ∈ data, x.2.1 = true → ∃ j, (x.1, j) ∈ ms ∧ pvFrom x.2.2.ty j = some x.2.2.back) ∧
    ms.map (·.1) = (data.filter (·.2.1)).map (·.1)
  | [], _ => ⟨[], [], rfl, .nil, .nil, by simp, rfl⟩
  | (k, sel, v) :: r, h => by
    have hx := h (k, sel, v) (by simp)
    obtain ⟨t, ms, h1, h2, h3, h4, h5⟩ := data_written r fun x hx => h x (by simp [hx])
    cases sel with
    | false =>
      refine ⟨t, ms, by rw [dataText, h1]; rfl, .skip h2, h3, ?_, by simpa using h5⟩
      intro x hx hs
      rcases List.mem_cons.1 hx with rfl | hx
      · cases hs
      · exact h4 x hx hs
    | true =>
      obtain ⟨u, j, p1, p2, p3, p4⟩ := pv_written v hx.2
      refine ⟨44 :: (dumps k ++ 58 :: u) ++ t, (k, j) :: ms, by rw [dataText, if_pos rfl, p1, h1]; rfl, .cons p2 h2, ?_, ?_, by simp [h5]⟩
      · exact (Tail.single (member_plain hx.1 p3)).append h3
      · intro x hx hs
        rcases List.mem_cons.1 hx with rfl | hx
        · exact ⟨j, by simp, p4⟩
        · obtain ⟨j', m1, m2⟩ := h4 x hx hs
          exact ⟨j', by simp [m1], m2⟩

/-- The link to the next page, as a member after a comma. -/
def nextText : Option Str → Str
  | some u => chars ",\"__next\":{\"uri\":" ++ dumps u ++ [125]
  | none => []

theorem coll_reads (v2 : Bool) (count : Option Nat) (l : List (Str × J)) (next : Option Str) (hl : ∀ x ∈ l, Reads x.1 x.2)
    (hn : ∀ u, next = some u → Plains u) :
    Reads (collStart v2 count ++ commas (l.map (·.1)) ++ collEnd v2 next) (collJ v2 count (l.map (·.2)) next) := by
  have ha := reads_arr l hl
  cases v2 with
  | false =>
    have : Reads (91 :: commas (l.map (·.1)) ++ [93]) (.arr (l.map (·.2))) := ha
    simpa [collStart, collEnd, collJ] using this
  | true =>
    have hres : chars "\"results\":[" = dumps (chars "results") ++ [58] ++ [91] := by decide +kernel
    have hkr : Plains (chars "results") := plains_lit (by decide +kernel)
    have mres : Member (dumps (chars "results") ++ [58] ++ (91 :: commas (l.map (·.1)) ++ [93])) (chars "results") (.arr (l.map (·.2))) := member_lit rfl hkr ha
    have tnext : Tail (nextText next)
        (next.toList.map fun u => (chars "__next", J.obj [(chars "uri", .str u)])) := by
      cases next with
      | none => exact Tail.nil
      | some u =>
        have hu : Member (chars "\"uri\":" ++ dumps u) (chars "uri") (.str u) := member_lit (by decide +kernel) (plains_lit (by decide +kernel)) (reads_str u (hn u rfl))
        have ho := reads_tail hu Tail.nil
        have := tail_lit (pre := chars ",\"__next\":") (k := chars "__next") (by decide +kernel) (plains_lit (by decide +kernel)) ho
        have e : chars ",\"__next\":{\"uri\":" = chars ",\"__next\":" ++ (123 :: chars "\"uri\":") := by decide +kernel
        rw [nextText, e]
        simpa [List.append_assoc] using this
    have hend : collEnd true next = 93 :: ((nextText next) ++ [125]) := by
      cases next with
      | none => decide +kernel
      | some u =>
        have e1 : chars "],\"__next\":{\"uri\":" = 93 :: chars ",\"__next\":{\"uri\":" := by decide +kernel
        have e2 : chars "}}" = [125, 125] := by decide +kernel
        simp [collEnd, nextText, e1, e2]
    rw [hend]
    cases count with
    | none =>
      have := reads_tail mres tnext
      simp only [collStart, collJ, if_true, hres, Option.toList_none, List.map_nil, List.nil_append, List.append_nil]
      simpa [List.append_assoc] using this
    | some n =>
      have mcount : Member (chars "\"__count\":" ++ decStr n) (chars "__count") (.num n) := by
        refine member_lit (by decide +kernel) (plains_lit (by decide +kernel)) ?_
        have := reads_num (n : Int)
        rwa [show intStr (n : Int) = decStr n by unfold intStr; rw [if_neg (by omega)]; simp] at this
      have := reads_tail mcount ((Tail.single mres).append tnext)
      simp only [collStart, collJ, if_true, hres, Option.toList_some, List.map_cons, List.map_nil]
      simpa [List.append_assoc] using this

theorem meta_member (loc ty : Str) (etag media : Option Str) (h1 : Plains loc) (h2 : Plains ty) (h3 : ∀ e, etag = some e → Plains e)
    (h4 : ∀ e, media = some e → Plains e) :
    Member (dumps (chars "__metadata") ++ 58 :: (123 :: (metaText loc ty etag media ++ [125]))) (chars "__metadata") (.obj (metaJ loc ty etag media)) :=
  member_plain (plains_lit (by decide +kernel)) (meta_reads loc ty etag media h1 h2 h3 h4)

theorem ent_text (loc ty : Str) (etag media : Option Str) (x : Str) :
    chars "{\"__metadata\":{" ++ metaText loc ty etag media ++ [125] ++ x ++ [125] =
      123 :: (dumps (chars "__metadata") ++ 58 :: (123 :: (metaText loc ty etag media ++ [125])) ++ x ++ [125]) := by
  have e : chars "{\"__metadata\":{" = 123 :: (dumps (chars "__metadata") ++ [58, 123]) := by decide +kernel
  rw [e]
  simp [List.append_assoc]

mutual
theorem ent_written (v2 : Bool) : ∀ (e : Ent), EntPlain e → ∃ t j, entText v2 e = some t ∧ EntDen v2 e j ∧ Reads t j
  | .mk loc ty etag media data nav, h => by
    rw [EntPlain] at h
    obtain ⟨h1, h2, h3, h4, h5, h6⟩ := h
    obtain ⟨ds, dm, d1, d2, d3, -⟩ := data_written data h5
    obtain ⟨ns, nm, n1, n2, n3⟩ := navs_written v2 loc h1 nav h6
    refine ⟨_, _, by rw [entText, d1, n1]; rfl, .mk d2 n2, ?_⟩
    have := reads_tail (meta_member loc ty etag media h1 h2 h3 h4) (d3.append n3)
    rw [← ent_text] at this
    simpa [List.append_assoc] using this
theorem navs_written (v2 : Bool) (loc : Str) (hl : Plains loc) : ∀ (nav : List (Str × Bool × Nav)), NavsPlain nav → ∃ t ms, navsText v2 loc nav = some t ∧
    NavsDen v2 loc nav ms ∧ Tail t ms
  | [], _ => ⟨[], [], rfl, .nil, .nil⟩
  | (k, sel, n) :: r, h => by
    rw [NavsPlain] at h
    obtain ⟨t, ms, h1, h2, h3⟩ := navs_written v2 loc hl r h.2.2
    cases sel with
    | false => exact ⟨t, ms, by rw [navsText, h1]; rfl, .skip h2, h3⟩
    | true =>
      obtain ⟨u, j, p1, p2, p3⟩ := nav_written v2 loc k hl h.1 n h.2.1
      refine ⟨44 :: ([32] ++ (dumps k ++ ([] ++ 58 :: u))) ++ t, (k, j) :: ms, ?_, .cons p2 h2, ?_⟩
      · have e : chars ", " = [44, 32] := by decide +kernel
        rw [navsText, if_pos rfl, p1, h1, e]
        simp
      · exact (Tail.single ⟨[32], [], u, rfl, by intro c hc; simp at hc; subst hc; rfl, by intro c hc; simp at hc, h.1, p3⟩).append h3
theorem nav_written (v2 : Bool) (loc k : Str) (hl : Plains loc) (hk : Plains k) : ∀ (n : Nav), NavPlain n → ∃ t j, navText v2 loc k n = some (58 :: t) ∧
    NavDen v2 loc k n j ∧ Reads t j
  | .deferred, _ => by
    have e : chars ":{\"__deferred\":{\"uri\":" = 58 :: 123 :: (chars "\"__deferred\":" ++ 123 :: chars "\"uri\":") := by decide +kernel
    have e2 : chars "}}" = [125, 125] := by decide +kernel
    have hu : Plains (loc ++ 47 :: k) := plains_append hl (by
      intro c hc
      rcases List.mem_cons.1 hc with rfl | hc
      · exact scalar_ascii (by decide)
      · exact hk c hc)
    have m1 : Member (chars "\"uri\":" ++ dumps (loc ++ 47 :: k)) (chars "uri") (.str (loc ++ 47 :: k)) :=
      member_lit (by decide +kernel) (plains_lit (by decide +kernel)) (reads_str _ hu)
    have r1 := reads_tail m1 Tail.nil
    have m2 := member_lit (pre := chars "\"__deferred\":") (k := chars "__deferred") (by decide +kernel) (plains_lit (by decide +kernel)) r1
    have r2 := reads_tail m2 Tail.nil
    refine ⟨123 :: (chars "\"__deferred\":" ++ (123 :: (chars "\"uri\":" ++ dumps (loc ++ 47 :: k) ++ [] ++ [125])) ++ [] ++ [125]), _, ?_, .deferred, r2⟩
    rw [navText, e, e2]
    simp [List.append_assoc]
  | .empty, _ => ⟨chars "null", _, rfl, .empty, reads_null⟩
  | .one e, h => by
    rw [NavPlain] at h
    obtain ⟨t, j, h1, h2, h3⟩ := ent_written v2 e h
    exact ⟨t, j, by rw [navText, h1]; rfl, .one h2, h3⟩
  | .many count es next, h => by
    rw [NavPlain] at h
    obtain ⟨l, h1, h2, h3⟩ := ents_written v2 es h.1
    exact ⟨_, _, by rw [navText, h1]; rfl, .many h2, coll_reads v2 count l next h3 h.2⟩
theorem ents_written (v2 : Bool) : ∀ (es : List Ent), EntsPlain es → ∃ l : List (Str × J), entsText v2 es = some (l.map (·.1)) ∧ EntsDen v2 es (l.map (·.2)) ∧
    ∀ x ∈ l, Reads x.1 x.2
  | [], _ => ⟨[], rfl, .nil, by simp⟩
  | e :: r, h => by
    rw [EntsPlain] at h
    obtain ⟨t, j, h1, h2, h3⟩ := ent_written v2 e h.1
    obtain ⟨l, p1, p2, p3⟩ := ents_written v2 r h.2
    refine ⟨(t, j) :: l, by rw [entsText, h1, p1]; rfl, .cons h2 p2, ?_⟩
    intro x hx
    rcases List.mem_cons.1 hx with rfl | hx
    · exact h3
    · exact p3 x hx
end

end Verif.Json
