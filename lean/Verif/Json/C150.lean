import Verif.Json.EntityProps
/-!
# C150, C151, C152: entities in JSON
-/
namespace Verif.Json
open Verif.Text Verif.OData Verif.Iso

/-! ## C150: the text of entities is the JSON text of the object they stand for -/

/-- C150: an existing entity, with expansions nested to any depth and any characters in its values, is written as text that `json.loads` reads
as exactly the object the entity stands for. -/
theorem C150_entity_json (v2 : Bool) (e : Ent) (h : EntPlain e) : ∃ t j, entText v2 e = some t ∧ loads t = some j ∧ EntDen v2 e j := by
  obtain ⟨t, j, h1, h2, h3⟩ := ent_written v2 e h
  exact ⟨t, j, h1, h3.loads, h2⟩

/-- C150: a page of a collection of any number of entities is written as the array (version 1) or object (version 2) that holds the
entities in order, the count if it was asked for and the link to the next page if there is one. -/
theorem C150_page_json (v2 : Bool) (count : Option Nat) (es : List Ent) (next : Option Str) (h : EntsPlain es) (hn : ∀ u, next = some u → Plains u) :
    ∃ t js, collText v2 count es next = some t ∧ EntsDen v2 es js ∧ loads t = some (collJ v2 count js next) := by
  obtain ⟨l, h1, h2, h3⟩ := ents_written v2 es h
  exact ⟨_, _, by rw [collText, h1]; rfl, h2, (coll_reads v2 count l next h3 hn).loads⟩

/-- C150: one property is written as a member: in an object by itself it is read as that member and nothing else. -/
theorem C150_property_json (k : Str) (hk : Plains k) (v : PV) (h : PVPlain v) :
    ∃ t j, pvJson v = some t ∧ PVDen v j ∧ loads (123 :: (dumps k ++ 58 :: t ++ [125])) = some (.obj [(k, j)]) := by
  obtain ⟨t, j, h1, h2, h3, -⟩ := pv_written v h
  refine ⟨t, j, h1, h2, ?_⟩
  have := (reads_tail (member_plain hk h3) Tail.nil).loads
  simpa using this

/-- C150 is not vacuous: quotes, line ends, characters outside the BMP, an expanded page and a deferred link. -/
def sampleEnt : Ent :=
  .mk (chars "http://h/Customers('A')") (chars "M.Customer") (some (chars "W/\"1\"")) none
    [(chars "Name", true, .simple .string (.str [34, 92, 10, 128512, 125])), (chars "Photo", false, .simple .binary .null),
      (chars "Address", true, .complex [(chars "City", .simple .string .null), (chars "Zip", .simple .int32 (.i32 (-5)))])]
    [(chars "Orders", true, .many (some 1) [.mk (chars "http://h/Orders(1)") (chars "M.Order") none none [(chars "Id", true, .simple .int64 (.i64 1))]
        [(chars "Customer", true, .deferred)]] none), (chars "Parent", true, .empty)]

theorem plains_chars {k : Str} (h : k.all (fun c => decide (c < 55296 ∨ (57343 < c ∧ c < 1114112))) = true) : Plains k := by
  intro c hc
  have := List.all_eq_true.1 h c hc
  simp at this
  unfold Scalar; omega

example : EntPlain sampleEnt := by
  have one : EntPlain (.mk (chars "http://h/Orders(1)") (chars "M.Order") none none [(chars "Id", true, .simple .int64 (.i64 1))]
      [(chars "Customer", true, .deferred)]) := by
    simp only [EntPlain, NavsPlain, NavPlain]
    refine ⟨plains_chars (by decide), plains_chars (by decide), by simp, by simp, ?_, plains_chars (by decide), trivial, trivial⟩
    intro x hx
    simp only [List.mem_cons, List.not_mem_nil, or_false] at hx
    subst hx
    exact ⟨plains_chars (by decide), by rw [PVPlain]; exact .int64 1 (by decide) (by decide)⟩
  simp only [sampleEnt, EntPlain, NavsPlain, NavPlain, EntsPlain]
  refine ⟨plains_chars (by decide), plains_chars (by decide), by intro e he; cases he; exact plains_chars (by decide), by simp, ?_,
    plains_chars (by decide), ⟨⟨?_, trivial⟩, by simp⟩, plains_chars (by decide), trivial, trivial⟩
  · intro x hx
    simp only [List.mem_cons, List.not_mem_nil, or_false] at hx
    rcases hx with rfl | rfl | rfl
    · exact ⟨plains_chars (by decide), by rw [PVPlain]; exact .string _ (plains_chars (by decide))⟩
    · exact ⟨plains_chars (by decide), by rw [PVPlain]; exact .null _⟩
    · refine ⟨plains_chars (by decide), ?_⟩
      simp only [PVPlain, FieldsPlain]
      exact ⟨plains_chars (by decide), by decide, .null _, plains_chars (by decide), by decide, .int32 _ (by decide) (by decide), trivial⟩
  · simpa only [EntPlain, NavsPlain, NavPlain] using one

/-! ## C151: what is read back -/

/-- C151: every value is read back as it was written (a UTC time comes back with the offset -00:00). -/
theorem C151_values_read_back (k : Kind) (v : Val) (h : Plain k v) :
    ∃ t j, valJson v = some t ∧ loads t = some j ∧ valFrom k j = some (back v) := by
  obtain ⟨t, j, h1, -, h3, h4⟩ := val_written h
  exact ⟨t, j, h1, h3.loads, h4⟩

/-- C151: the same for complex values nested to any depth. -/
theorem C151_complex_read_back (v : PV) (h : PVPlain v) : ∃ t j, pvJson v = some t ∧ loads t = some j ∧ pvFrom v.ty j = some v.back := by
  obtain ⟨t, j, h1, -, h3, h4⟩ := pv_written v h
  exact ⟨t, j, h1, h3.loads, h4⟩

/-- What the properties of an entity are after reading its JSON text: those not selected are NULL. -/
def entBack (data : List (Str × Bool × PV)) : List (Str × PV) :=
  data.map fun x => (x.1, if x.2.1 then x.2.2.back else match x.2.2 with | .simple k _ => .simple k .null | .complex fs => .complex fs)

/-- The declared properties of the entity. -/
def entTys (data : List (Str × Bool × PV)) : List (Str × PTy) := data.map fun x => (x.1, x.2.2.ty)

theorem fieldsFrom_data (m : List (Str × J)) : ∀ (data : List (Str × Bool × PV)),
    (∀ x ∈ data, (x.2.1 = true → ∃ j, J.get? m x.1 = some j ∧ pvFrom x.2.2.ty j = some x.2.2.back) ∧
      (x.2.1 = false → J.get? m x.1 = none ∧ ∃ k v, x.2.2 = .simple k v)) → fieldsFrom (entTys data) m = some (entBack data)
  | [], _ => rfl
  | (k, sel, v) :: r, h => by
    have ih := fieldsFrom_data m r fun x hx => h x (by simp [hx])
    have hx := h (k, sel, v) (by simp)
    dsimp only at hx
    have e1 : entTys ((k, sel, v) :: r) = (k, v.ty) :: entTys r := rfl
    rw [e1]
    cases sel with
    | true =>
      obtain ⟨j, h1, h2⟩ := hx.1 rfl
      simp only [fieldsFrom, h1]
      rw [h2, ih]; rfl
    | false =>
      obtain ⟨h1, kd, w, rfl⟩ := hx.2 rfl
      simp only [fieldsFrom, h1, PV.ty]
      rw [ih]; rfl

theorem key_inj {α : Type} {l : List (Str × α)} (h : (l.map (·.1)).Nodup) {x y : Str × α} (hx : x ∈ l) (hy : y ∈ l) (e : x.1 = y.1) : x = y := by
  induction l with
  | nil => cases hx
  | cons z l ih =>
    rw [List.map_cons, List.nodup_cons] at h
    rcases List.mem_cons.1 hx with h1 | h1
    · rcases List.mem_cons.1 hy with h2 | h2
      · rw [h1, h2]
      · exact absurd (List.mem_map.2 ⟨y, h2, by rw [← e, h1]⟩) h.1
    · rcases List.mem_cons.1 hy with h2 | h2
      · exact absurd (List.mem_map.2 ⟨x, h1, by rw [e, h2]⟩) h.1
      · exact ih h.2 h1 h2

theorem navsDen_keys (v2 : Bool) (loc : Str) : ∀ (nav : List (Str × Bool × Nav)) (ms : List (Str × J)), NavsDen v2 loc nav ms →
    ms.map (·.1) = (nav.filter (·.2.1)).map (·.1)
  | [], _, h => by cases h; rfl
  | _ :: r, _, h => by
    cases h with
    | skip h => simpa using navsDen_keys v2 loc r _ h
    | cons _ h => simpa using navsDen_keys v2 loc r _ h

/-- C151: reading the text of an entity gives back the values of the selected properties, and NULL for the others. -/
theorem C151_entity_read_back (v2 : Bool) (loc ty : Str) (etag media : Option Str) (data : List (Str × Bool × PV)) (nav : List (Str × Bool × Nav))
    (h : EntPlain (.mk loc ty etag media data nav)) (hnames : (chars "__metadata" :: (data.map (·.1) ++ nav.map (·.1))).Nodup)
    (hcomplex : ∀ x ∈ data, x.2.1 = false → ∃ k v, x.2.2 = .simple k v) :
    ∃ t m, entText v2 (.mk loc ty etag media data nav) = some t ∧ loads t = some (.obj m) ∧ fieldsFrom (entTys data) m = some (entBack data) := by
  rw [EntPlain] at h
  obtain ⟨h1, h2, h3, h4, h5, h6⟩ := h
  obtain ⟨ds, dm, d1, d2, d3, d4, d5⟩ := data_written data h5
  obtain ⟨ns, nm, n1, n2, n3⟩ := navs_written v2 loc h1 nav h6
  have hr := reads_tail (meta_member loc ty etag media h1 h2 h3 h4) (d3.append n3)
  rw [← ent_text] at hr
  refine ⟨_, (chars "__metadata", .obj (metaJ loc ty etag media)) :: (dm ++ nm), by rw [entText, d1, n1]; rfl, ?_, ?_⟩
  · have := hr.loads
    simpa [List.append_assoc] using this
  · have hk : ((chars "__metadata", J.obj (metaJ loc ty etag media)) :: (dm ++ nm)).map (·.1) =
        chars "__metadata" :: ((data.filter (·.2.1)).map (·.1) ++ (nav.filter (·.2.1)).map (·.1)) := by
      simp [d5, navsDen_keys v2 loc nav nm n2]
    have hsub : (chars "__metadata" :: ((data.filter (·.2.1)).map (·.1) ++ (nav.filter (·.2.1)).map (·.1))).Sublist
        (chars "__metadata" :: (data.map (·.1) ++ nav.map (·.1))) :=
      List.Sublist.cons_cons _ (List.Sublist.append (List.filter_sublist.map _) (List.filter_sublist.map _))
    have hnd := hnames.sublist hsub
    apply fieldsFrom_data
    intro x hx
    refine ⟨fun hs => ?_, fun hs => ⟨?_, hcomplex x hx hs⟩⟩
    · obtain ⟨j, m1, m2⟩ := d4 x hx hs
      exact ⟨j, get_of_mem (by rw [hk]; exact hnd) (by simp [m1]), m2⟩
    · apply get_none
      rw [hk]
      rw [List.nodup_cons] at hnames
      intro hm
      rcases List.mem_cons.1 hm with he | hm
      · exact hnames.1 (by rw [← he]; exact List.mem_append_left _ (List.mem_map.2 ⟨x, hx, rfl⟩))
      · rcases List.mem_append.1 hm with hm | hm
        · obtain ⟨y, hy, he⟩ := List.mem_map.1 hm
          rw [List.mem_filter] at hy
          have hdn : (data.map (·.1)).Nodup := (List.nodup_append.1 hnames.2).1
          have : y = x := key_inj hdn hy.1 hx he
          subst this
          rw [hs] at hy; exact absurd hy.2 (by simp)
        · obtain ⟨y, hy, he⟩ := List.mem_map.1 hm
          rw [List.mem_filter] at hy
          exact (List.nodup_append.1 hnames.2).2.2 _ (List.mem_map.2 ⟨x, hx, rfl⟩) _ (List.mem_map.2 ⟨y, hy.1, rfl⟩) he.symm

/-- C151: a DateTime before 1970 is written, but what is written cannot be read. -/
theorem C151_before_1970_violation (d : YMD) (c : Clock) (hd : d.Valid) (h59 : c.s ≤ 59) (h : millis d c < 0) :
    ∃ t j, valJson (.dt (timePoint d c .unspecified) []) = some t ∧ loads t = some j ∧ valFrom .dateTime j = none := by
  refine ⟨_, _, by simp only [valJson, if_true, dateTicks_eq d c hd h59]; rfl, (reads_date _ (intStr_chars _)).loads, ?_⟩
  have hi : intStr (millis d c) = 45 :: decStr (millis d c).natAbs := by unfold intStr; rw [if_pos h]
  have hdg := digits_chars (decStr_isDigit (millis d c).natAbs)
  have h43 : 43 ∉ (45 :: decStr (millis d c).natAbs) := by
    intro hm
    rcases List.mem_cons.1 hm with hm | hm
    · omega
    · have := hdg 43 hm; omega
  have h45 : 45 ∉ decStr (millis d c).natAbs := fun hm => by have := hdg 45 hm; omega
  have hs : splitTwo 45 (45 :: decStr (millis d c).natAbs) = some ([], decStr (millis d c).natAbs) := splitTwo_of (a := []) (List.not_mem_nil) h45
  have hparts : aspParts (45 :: decStr (millis d c).natAbs) = some ([], -1, ((millis d c).natAbs : Int)) := by
    unfold aspParts
    rw [if_neg h43, if_pos (by simp), hs]
    simp [pyInt_digits (decStr_ne_nil _) (decStr_isDigit _), decVal_decStr]
  have hp : parseAsp (aspText (45 :: decStr (millis d c).natAbs)) = none := by
    have ⟨e1, e2, e3⟩ := asp_take (45 :: decStr (millis d c).natAbs)
    unfold parseAsp
    rw [if_pos (by simp [e1, e2]), e3, hparts]
    simp [pyInt]
  simp only [valFrom]
  rw [if_pos (asp_take _).1, hi, hp]
  rfl

/-- C151: nor can a DateTimeOffset before 1970 that is not east of Greenwich. -/
theorem C151_before_1970_offset_violation (d : YMD) (c : Clock) (hd : d.Valid) (h59 : c.s ≤ 59) (h : millis d c < 0) (n : Int)
    (hn : 0 ≤ n) : ∃ t j, valJson (.dto (timePoint d c (.west n))) = some t ∧ loads t = some j ∧ valFrom .dateTimeOffset j = none := by
  refine ⟨_, _, by simp only [valJson, dateTicks_eq d c hd h59]; rfl, (reads_date _ (body_chars _ 45 (.inr rfl) n hn)).loads, ?_⟩
  have hi : intStr (millis d c) = 45 :: decStr (millis d c).natAbs := by unfold intStr; rw [if_pos h]
  have hdg := digits_chars (decStr_isDigit (millis d c).natAbs)
  have h2 := digits_chars (fmt4_digits n hn).2.1
  have h43 : 43 ∉ 45 :: (decStr (millis d c).natAbs ++ 45 :: fmtInt 4 n) := by
    intro hm
    simp only [List.mem_cons, List.mem_append] at hm
    rcases hm with hm | hm | hm | hm
    · omega
    · have := hdg 43 hm; omega
    · omega
    · have := h2 43 hm; omega
  have hs : splitTwo 45 (45 :: (decStr (millis d c).natAbs ++ 45 :: fmtInt 4 n)) = none := by
    unfold splitTwo
    simp
  have hparts : aspParts (intStr (millis d c) ++ 45 :: fmtInt 4 n) = none := by
    rw [hi, List.cons_append]
    unfold aspParts
    rw [if_neg h43, if_pos (by simp), hs]
    rfl
  have hp : parseAsp (aspText (intStr (millis d c) ++ 45 :: fmtInt 4 n)) = none := by
    have ⟨e1, e2, e3⟩ := asp_take (intStr (millis d c) ++ 45 :: fmtInt 4 n)
    unfold parseAsp
    rw [if_pos (by simp [e1, e2]), e3, hparts]
    rfl
  simp only [valFrom]
  rw [if_pos (asp_take _).1]
  have hb : ((timePoint d c (Zone.west n)).time.zdir = some 1) = False := by simp [timePoint, Clock.time]
  simp only [hp]
  rfl

/-- C151: a leap second is written as the second before it. -/
theorem C151_leap_second_violation (d : YMD) (h m : Int) :
    valJson (.dt (timePoint d ⟨h, m, 60⟩ .unspecified) []) = valJson (.dt (timePoint d ⟨h, m, 59⟩ .unspecified) []) := by
  simp only [valJson, dateTicks]
  rfl

/-- C151: a complex property that is not in the object, or is null there, makes reading fail (AttributeError, TypeError). -/
theorem C151_complex_violation (k : Str) (fs : List (Str × PTy)) (r : List (Str × PTy)) (m : List (Str × J))
    (h : J.get? m k = none ∨ J.get? m k = some .null) : fieldsFrom ((k, .complex fs) :: r) m = none := by
  rcases h with h | h <;> simp [fieldsFrom, h, pvFrom]

/-- C151 is not vacuous; the dates that are refused exist. -/
example : Plain .dateTimeOffset (.dto (timePoint ⟨1969, 7, 20⟩ ⟨20, 17, 40⟩ (.east 120))) :=
  .east _ _ _ (by decide) (by decide) (by decide) (by decide) (by decide) (by decide)
example : YMD.Valid ⟨1969, 7, 20⟩ ∧ Clock.Valid ⟨20, 17, 40⟩ ∧ millis ⟨1969, 7, 20⟩ ⟨20, 17, 40⟩ = -14182940000 := by decide +kernel
example : Plain .dateTime (.dt (timePoint ⟨2000, 2, 29⟩ ⟨23, 59, 59⟩ .unspecified) []) := .dateTime _ _ (by decide) (by decide) (by decide) (by decide) (by decide +kernel)

/-! ## C152: new entities and their bindings -/

mutual
/-- The text is without surrogates, the values are plain, there is at least one data property, the names are distinct. -/
def NewPlain : NewEnt → Prop
  | .mk loc ty etag media data links => Plains loc ∧ Plains ty ∧ (∀ e, etag = some e → Plains e) ∧ (∀ e, media = some e → Plains e) ∧
      FieldsPlain data ∧ data ≠ [] ∧ (chars "__metadata" :: (data.map (·.1) ++ links.map (·.1))).Nodup ∧ LinksPlain links
def LinksPlain : List (Str × List Bind) → Prop
  | [] => True
  | (k, bs) :: r => Plains k ∧ BindsPlain bs ∧ LinksPlain r
def BindsPlain : List Bind → Prop
  | [] => True
  | b :: r => BindPlain b ∧ BindsPlain r
def BindPlain : Bind → Prop
  | .ref u => Plains u
  | .deep e => NewPlain e
end

mutual
/-- The entity is one of the entity set, and the navigation properties with bindings are all to collections. -/
def Conforms (schema : Nat → SetDef) : Nat → NewEnt → Prop
  | set, .mk _ _ _ _ data links => (schema set).data = fieldsTy data ∧ LinksConform schema (schema set).nav links
def LinksConform (schema : Nat → SetDef) : List (Str × Bool × Nat) → List (Str × List Bind) → Prop
  | nav, [] => nav = []
  | nav, (k, bs) :: r => ∃ coll target nav', nav = (k, coll, target) :: nav' ∧ (bs = [] ∨ coll = true) ∧ BindsConform schema target bs ∧ LinksConform schema nav' r
def BindsConform (schema : Nat → SetDef) : Nat → List Bind → Prop
  | _, [] => True
  | target, b :: r => BindConform schema target b ∧ BindsConform schema target r
def BindConform (schema : Nat → SetDef) : Nat → Bind → Prop
  | _, .ref _ => True
  | target, .deep e => Conforms schema target e
end

mutual
/-- The same entity, as it is read back: each data property, and each binding, in the same order. -/
def NewEnt.got : NewEnt → Got
  | .mk _ _ _ _ data links => .mk (fieldsBack data) (linksGot links)
def linksGot : List (Str × List Bind) → List (Str × List GotBind)
  | [] => []
  | (k, bs) :: r => if bs.isEmpty then linksGot r else (k, bindsGot bs) :: linksGot r
def bindsGot : List Bind → List GotBind
  | [] => []
  | b :: r => bindGot b :: bindsGot r
def bindGot : Bind → GotBind
  | .ref u => .ref u
  | .deep e => .deep e.got
end

mutual
/-- How deep new entities are nested. -/
def NewEnt.depth : NewEnt → Nat
  | .mk _ _ _ _ _ links => linksDepth links + 1
def linksDepth : List (Str × List Bind) → Nat
  | [] => 0
  | (_, bs) :: r => max (bindsDepth bs) (linksDepth r)
def bindsDepth : List Bind → Nat
  | [] => 0
  | b :: r => max (bindDepth b) (bindsDepth r)
def bindDepth : Bind → Nat
  | .ref _ => 0
  | .deep e => e.depth
end

theorem fieldsDen_data {data : List (Str × PV)} (h : FieldsPlain data) : ∃ t ms, dataText (data.map fun x => (x.1, true, x.2)) = some t ∧ Tail t ms ∧
    ms.map (·.1) = data.map (·.1) ∧ ∀ m : List (Str × J), (∀ x ∈ ms, J.get? m x.1 = some x.2) → fieldsFrom (fieldsTy data) m = some (fieldsBack data) := by
  obtain ⟨ts, l, h1, h2, h3, h4, h5⟩ := fields_written data h
  refine ⟨l.flatMap (fun x => 44 :: x.1), l.map (·.2), ?_, ⟨l, rfl, h3, rfl⟩, fieldsDen_keys h4, h5⟩
  subst h2
  clear h3 h4 h5 h
  induction data generalizing l with
  | nil =>
    rw [fieldsJson] at h1
    cases l with
    | nil => rfl
    | cons x l => simp at h1
  | cons x data ih =>
    obtain ⟨k, v⟩ := x
    rw [fieldsJson] at h1
    cases hv : pvJson v with
    | none => rw [hv] at h1; simp at h1
    | some t =>
      cases hr : fieldsJson data with
      | none => rw [hv, hr] at h1; simp at h1
      | some ts =>
        rw [hv, hr] at h1
        cases l with
        | nil => simp at h1
        | cons y l =>
          simp only [Option.bind_eq_bind, Option.bind_some, pure, List.map_cons, Option.some.injEq, List.cons.injEq] at h1
          have := ih l (by rw [hr, h1.2])
          rw [List.map_cons, dataText, this, if_pos rfl]
          dsimp only
          rw [hv]
          simp [← h1.1]

mutual
theorem new_written (schema : Nat → SetDef) : ∀ (e : NewEnt), NewPlain e → ∃ t m, newText e = some t ∧ Reads t (.obj m) ∧ 2 ≤ m.length ∧
    ∀ f set, Conforms schema set e → e.depth ≤ f → readNew schema f set (.obj m) = some e.got
  | .mk loc ty etag media data links, h => by
    rw [NewPlain] at h
    obtain ⟨h1, h2, h3, h4, h5, h6, h7, h8⟩ := h
    obtain ⟨ds, dm, d1, d2, d3, d4⟩ := fieldsDen_data h5
    obtain ⟨ls, lm, l1, l2, l3, l4⟩ := links_written schema links h8
    have hr := reads_tail (meta_member loc ty etag media h1 h2 h3 h4) (d2.append l2)
    rw [← ent_text] at hr
    refine ⟨_, (chars "__metadata", .obj (metaJ loc ty etag media)) :: (dm ++ lm), by rw [newText, d1, l1]; rfl, by simpa [List.append_assoc] using hr, ?_, ?_⟩
    · have : 0 < dm.length := by
        have := congrArg List.length d3
        simp only [List.length_map] at this
        rw [this]
        exact List.length_pos_iff.2 h6
      simp only [List.length_cons, List.length_append]; omega
    · intro f set hc hf
      rw [Conforms] at hc
      rw [NewEnt.depth] at hf
      obtain ⟨f, rfl⟩ : ∃ g, f = g + 1 := ⟨f - 1, by omega⟩
      have hk : ((chars "__metadata", J.obj (metaJ loc ty etag media)) :: (dm ++ lm)).map (·.1) =
          chars "__metadata" :: (data.map (·.1) ++ (links.filter (fun x => !x.2.isEmpty)).map (·.1)) := by simp [d3, l3]
      have hsub : (chars "__metadata" :: (data.map (·.1) ++ (links.filter (fun x => !x.2.isEmpty)).map (·.1))).Sublist
          (chars "__metadata" :: (data.map (·.1) ++ links.map (·.1))) :=
        List.Sublist.cons_cons _ (List.Sublist.append (List.Sublist.refl _) (List.filter_sublist.map _))
      have hnd := h7.sublist hsub
      rw [← hk] at hnd
      rw [readNew, hc.1, d4 _ (fun x hx => get_of_mem hnd (by simp [hx])),
        l4 f (schema set).nav _ hc.2 (by omega) (fun x hx => get_of_mem hnd (by simp [hx])) ?_]
      · rw [NewEnt.got]; rfl
      · intro x hx he
        apply get_none
        rw [hk]
        rw [List.nodup_cons] at h7
        have hap := List.nodup_append.1 h7.2
        intro hm
        rcases List.mem_cons.1 hm with e | hm
        · exact h7.1 (by rw [← e]; exact List.mem_append_right _ (List.mem_map.2 ⟨x, hx, rfl⟩))
        · rcases List.mem_append.1 hm with hm | hm
          · exact hap.2.2 _ hm _ (List.mem_map.2 ⟨x, hx, rfl⟩) rfl
          · obtain ⟨y, hy, e⟩ := List.mem_map.1 hm
            rw [List.mem_filter] at hy
            have : y = x := key_inj hap.2.1 hy.1 hx e
            subst this
            rw [he] at hy; simp at hy
theorem links_written (schema : Nat → SetDef) : ∀ (links : List (Str × List Bind)), LinksPlain links → ∃ t ms, linksText links = some t ∧ Tail t ms ∧
    ms.map (·.1) = (links.filter (fun x => !x.2.isEmpty)).map (·.1) ∧
    ∀ f nav m, LinksConform schema nav links → linksDepth links ≤ f → (∀ x ∈ ms, J.get? m x.1 = some x.2) →
      (∀ x ∈ links, x.2 = [] → J.get? m x.1 = none) → readLinks schema f nav m = some (linksGot links)
  | [], _ => ⟨[], [], rfl, .nil, rfl, fun f nav m h _ _ _ => by rw [LinksConform] at h; subst h; rw [readLinks, linksGot]⟩
  | (k, bs) :: r, h => by
    rw [LinksPlain] at h
    obtain ⟨t, ms, h1, h2, h3, h4⟩ := links_written schema r h.2.2
    by_cases he : bs = []
    · subst he
      refine ⟨t, ms, by rw [linksText, h1]; rfl, h2, by simpa using h3, ?_⟩
      intro f nav m hc hd hm hn
      rw [LinksConform] at hc
      obtain ⟨coll, target, nav', rfl, -, -, hc⟩ := hc
      rw [linksDepth] at hd
      have hnone := hn (k, []) (by simp) rfl
      dsimp only at hnone
      rw [readLinks]
      simp only [hnone]
      rw [h4 f nav' m hc (by omega) hm fun x hx => hn x (by simp [hx])]
      simp [linksGot]
    · obtain ⟨l, b1, b2, b3⟩ := binds_written schema bs h.2.1 he
      have hemp : bs.isEmpty = false := by cases bs <;> simp_all
      have hr := reads_arr l b2
      have hmem : Member ([32] ++ (dumps k ++ ([32] ++ 58 :: (91 :: commas (l.map (·.1)) ++ [93])))) k (.arr (l.map (·.2))) :=
        ⟨[32], [32], _, rfl, by intro c hc; simp at hc; subst hc; rfl, by intro c hc; simp at hc; subst hc; rfl, h.1, hr⟩
      refine ⟨_, _, ?_, (Tail.single hmem).append h2, by simp [hemp, h3], ?_⟩
      · have e1 : chars ", " = [44, 32] := by decide +kernel
        have e2 : chars " :[" = [32, 58, 91] := by decide +kernel
        rw [linksText, hemp, b1, h1, e1, e2]
        simp [List.append_assoc]
      · intro f nav m hc hd hm hn
        rw [LinksConform] at hc
        obtain ⟨coll, target, nav', rfl, hcoll, hb, hc⟩ := hc
        have hcoll : coll = true := hcoll.resolve_left he
        subst hcoll
        rw [linksDepth] at hd
        have hk := hm (k, .arr (l.map (·.2))) (by simp)
        dsimp only at hk
        rw [readLinks]
        simp only [hk, if_true]
        rw [b3 f target hb (by omega), h4 f nav' m hc (by omega) (fun x hx => hm x (by simp [hx])) fun x hx => hn x (by simp [hx])]
        simp [linksGot, hemp]
theorem binds_written (schema : Nat → SetDef) : ∀ (bs : List Bind), BindsPlain bs → bs ≠ [] → ∃ l : List (Str × J), bindsText bs = some (commas (l.map (·.1))) ∧
    (∀ x ∈ l, Reads x.1 x.2) ∧
    ∀ f target, BindsConform schema target bs → bindsDepth bs ≤ f → readBinds schema f target (l.map (·.2)) = some (bindsGot bs)
  | [], _, hne => absurd rfl hne
  | [b], h, _ => by
    rw [BindsPlain] at h
    obtain ⟨t, j, h1, h2, h3⟩ := bind_written schema b h.1
    refine ⟨[(t, j)], by simp [bindsText, h1, commas], by simpa using h2, ?_⟩
    intro f target hc hd
    rw [BindsConform] at hc
    simp only [bindsDepth] at hd
    have := h3 f target hc.1 (by omega)
    simp [readBinds, this, bindsGot]
  | b :: b' :: r, h, _ => by
    rw [BindsPlain] at h
    obtain ⟨t, j, h1, h2, h3⟩ := bind_written schema b h.1
    obtain ⟨l, p1, p2, p3⟩ := binds_written schema (b' :: r) h.2 (by simp)
    cases l with
    | nil =>
      exfalso
      have hf := p3
      clear p3
      rw [bindsText] at p1
      cases hb : bindText b' with
      | none => rw [hb] at p1; simp at p1
      | some u =>
        rw [hb] at p1
        cases hr : bindsText r with
        | none => rw [hr] at p1; simp at p1
        | some us =>
          rw [hr] at p1
          obtain ⟨t', j', q1, q2, -⟩ := bind_written schema b' (by rw [BindsPlain] at h; exact h.2.1)
          rw [hb] at q1
          cases q1
          have hne := q2.not_close (r := []) (by intro c hc; simp at hc)
          simp only [Option.bind_eq_bind, Option.bind_some, pure, List.map_nil, commas, Option.some.injEq] at p1
          have hu : u = [] := by
            split at p1
            · exact p1
            · simp at p1; exact p1.1
          subst hu
          have := q2 1 [] (by simp) (by intro c hc; simp at hc)
          simp [parseVal, skipWs, parseAtom, parseInt] at this
    | cons x l =>
      refine ⟨(t, j) :: (32 :: x.1, x.2) :: l, ?_, ?_, ?_⟩
      · have e1 : chars ", " = [44, 32] := by decide +kernel
        have e2 : ∀ (u : Str) (us : List Str), commas ((32 :: u) :: us) = 32 :: commas (u :: us) := by
          intro u us; cases us <;> rfl
        rw [bindsText, h1, p1, e1]
        simp [commas_cons, e2]
      · intro y hy
        rcases List.mem_cons.1 hy with rfl | hy
        · exact h2
        · rcases List.mem_cons.1 hy with rfl | hy
          · exact (p2 x (by simp)).ws (p := [32]) (by intro c hc; simp at hc; subst hc; rfl)
          · exact p2 y (by simp [hy])
      · intro f target hc hd
        rw [BindsConform] at hc
        rw [bindsDepth] at hd
        have q1 := h3 f target hc.1 (by omega)
        have q2 := p3 f target hc.2 (by omega)
        simp only [List.map_cons] at q2 ⊢
        rw [readBinds, q1, q2, bindsGot]
        rfl
theorem bind_written (schema : Nat → SetDef) : ∀ (b : Bind), BindPlain b → ∃ t j, bindText b = some t ∧ Reads t j ∧
    ∀ f target, BindConform schema target b → bindDepth b ≤ f → readBind schema f target j = some (bindGot b)
  | .ref u, h => by
    rw [BindPlain] at h
    have e : chars "{ \"__metadata\":{\"uri\":" = 123 :: ([32] ++ (dumps (chars "__metadata") ++ ([] ++ 58 :: (123 :: chars "\"uri\":")))) := by decide +kernel
    have e2 : chars "}}" = [125, 125] := by decide +kernel
    have m1 : Member (chars "\"uri\":" ++ dumps u) (chars "uri") (.str u) := member_lit (by decide +kernel) (plains_lit (by decide +kernel)) (reads_str _ h)
    have r1 := reads_tail m1 Tail.nil
    have m2 : Member ([32] ++ (dumps (chars "__metadata") ++ ([] ++ 58 :: (123 :: (chars "\"uri\":" ++ dumps u ++ [] ++ [125]))))) (chars "__metadata") _ :=
      ⟨[32], [], _, rfl, by intro c hc; simp at hc; subst hc; rfl, by intro c hc; simp at hc, plains_lit (by decide +kernel), r1⟩
    have r2 := reads_tail m2 Tail.nil
    refine ⟨_, _, ?_, r2, ?_⟩
    · rw [bindText, e, e2]
      simp [List.append_assoc]
    · intro f target _ _
      rw [readBind, if_pos rfl, get_cons_self (by simp)]
      rfl
  | .deep e, h => by
    rw [BindPlain] at h
    obtain ⟨t, m, h1, h2, h3, h4⟩ := new_written schema e h
    refine ⟨t, .obj m, by rw [bindText]; exact h1, h2, ?_⟩
    intro f target hc hd
    rw [BindConform] at hc
    rw [bindDepth] at hd
    have := h4 f target hc hd
    obtain ⟨a, b, m, rfl⟩ : ∃ a b m', m = a :: b :: m' := by
      rcases m with _ | ⟨a, _ | ⟨b, m⟩⟩ <;> simp at h3
      exact ⟨a, b, m, rfl⟩
    rw [readBind, this]
    · rfl
    · intro k md hx; simp at hx
end

/-- C152: a new entity with bindings to collections (existing entities and new ones, nested to any depth) is written as JSON text from which the
same properties and the same bindings in the same order are read. -/
theorem C152_new_entity_partial (schema : Nat → SetDef) (set : Nat) (e : NewEnt) (h : NewPlain e) (hc : Conforms schema set e) :
    ∃ t j, newText e = some t ∧ loads t = some j ∧ ∀ f, e.depth ≤ f → readNew schema f set j = some e.got := by
  obtain ⟨t, m, h1, h2, -, h4⟩ := new_written schema e h
  exact ⟨t, .obj m, h1, h2.loads, fun f hf => h4 f set hc hf⟩

/-- C152: the list that is written for a navigation property to a single entity is read as one new entity with every property NULL, whatever was
bound. -/
theorem C152_single_valued_violation (schema : Nat → SetDef) (f target : Nat) (l : List J) (hl : ∀ j ∈ l, ∃ m, j = .obj m) :
    readBinds schema (f + 1) target [.arr l] = (allNull (schema target)).map fun g => [.deep g] := by
  have hany : l.any J.isStr = false := by
    rw [List.any_eq_false]
    intro j hj
    obtain ⟨m, rfl⟩ := hl j hj
    simp [J.isStr]
  rw [readBinds, readBind, readNew, hany]
  · simp only [Bool.false_eq_true, if_false]
    cases allNull (schema target) with
    | none => rfl
    | some g => simp [readBinds]
  · intro k md hx; cases hx

/-- C152: an order bound to the customer at a location comes back with a new, empty customer. -/
theorem C152_single_valued_witness :
    let schema : Nat → SetDef := fun n => if n = 0 then ⟨[(chars "Id", .simple .int32)], [(chars "Customer", false, 1)]⟩ else ⟨[(chars "Name", .simple .string)], []⟩
    readNew schema 2 0 (.obj [(chars "Id", .num 5), (chars "Customer", .arr [.obj [(chars "__metadata", .obj [(chars "uri", .str (chars "http://h/C(1)"))])]])]) =
      some (.mk [(chars "Id", .simple .int32 (.i32 5))] [(chars "Customer", [.deep (.mk [(chars "Name", .simple .string .null)] [])])]) := by
  intro schema
  have h := C152_single_valued_violation schema 0 1 [.obj [(chars "__metadata", .obj [(chars "uri", .str (chars "http://h/C(1)"))])]] (by simp)
  have e1 : J.get? [(chars "Id", J.num 5), (chars "Customer", .arr [.obj [(chars "__metadata", .obj [(chars "uri", .str (chars "http://h/C(1)"))])]])] (chars "Id") = some (.num 5) := by
    rw [get_cons_self (by decide)]
  have e2 : J.get? [(chars "Id", J.num 5), (chars "Customer", .arr [.obj [(chars "__metadata", .obj [(chars "uri", .str (chars "http://h/C(1)"))])]])] (chars "Customer") =
      some (.arr [.obj [(chars "__metadata", .obj [(chars "uri", .str (chars "http://h/C(1)"))])]]) := by
    rw [get_cons_ne (by decide), get_cons_self (by decide)]
  have e3 : (schema 0).data = [(chars "Id", .simple .int32)] := rfl
  have e4 : (schema 0).nav = [(chars "Customer", false, 1)] := rfl
  rw [readNew, e3, e4]
  simp only [fieldsFrom, readLinks, e1, e2]
  rw [if_neg (by decide), h]
  rfl

/-- C152 is not vacuous: a customer with two existing orders and a new one. -/
def sampleNew : NewEnt :=
  .mk (chars "Customers") (chars "M.Customer") none none [(chars "Name", .simple .string (.str (chars "Ann")))]
    [(chars "Orders", [.ref (chars "http://h/Orders(1)"), .deep (.mk (chars "Orders") (chars "M.Order") none none [(chars "Id", .simple .int32 (.i32 9))] []),
      .ref (chars "http://h/Orders(2)")]), (chars "Parent", [])]

example : NewPlain sampleNew ∧ Conforms (fun n => if n = 0 then ⟨[(chars "Name", .simple .string)], [(chars "Orders", true, 1), (chars "Parent", false, 0)]⟩ else
    ⟨[(chars "Id", .simple .int32)], []⟩) 0 sampleNew ∧ sampleNew.depth = 2 := by
  refine ⟨?_, ?_, by decide⟩
  · simp only [sampleNew, NewPlain, LinksPlain, BindsPlain, BindPlain, FieldsPlain, PVPlain]
    refine ⟨plains_chars (by decide), plains_chars (by decide), by simp, by simp, ⟨plains_chars (by decide), by decide, .string _ (plains_chars (by decide)), trivial⟩,
      by simp, by decide, plains_chars (by decide), ⟨plains_chars (by decide), ⟨plains_chars (by decide), plains_chars (by decide), by simp, by simp,
        ⟨plains_chars (by decide), by decide, .int32 9 (by decide) (by decide), trivial⟩, by simp, by decide, trivial⟩, plains_chars (by decide), trivial⟩,
      plains_chars (by decide), trivial, trivial⟩
  · simp [sampleNew, Conforms, LinksConform, BindsConform, BindConform, fieldsTy, PV.ty]

end Verif.Json
