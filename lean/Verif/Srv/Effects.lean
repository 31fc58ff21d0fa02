import Verif.Srv.Path
/-!
# C137-C139: what a request changes
-/
namespace Verif.Srv

open Verif.OData Verif.Text Verif.OUri

variable {D E C V X Fn F : Type}

/-! ## Specification -/

/-- An operation that raises has changed nothing. -/
def AtomicOp {α : Type} (f : Act D α) : Prop := ∀ d d' e, f d = (d', .error e) → d' = d

/-- The operations of the data layer are atomic. -/
structure Atomic (S : Service D E C V X Fn F) : Prop where
  insertLink : ∀ p n e, AtomicOp (S.insertLink p n e)
  replaceLink : ∀ p n e, AtomicOp (S.replaceLink p n e)
  deleteLink : ∀ p n e, AtomicOp (S.deleteLink p n e)
  updateStream : ∀ e i, AtomicOp (S.updateStream e i)
  update : ∀ e m, AtomicOp (S.update e m)
  delete : ∀ e, AtomicOp (S.delete e)
  newStream : ∀ c i, AtomicOp (S.newStream c i)
  insert : ∀ c e, AtomicOp (S.insert c e)
  commit : ∀ e v, AtomicOp (S.commit e v)

/-- The body of the request does not refer to a function import. -/
def NoFunctionLink (S : Service D E C V X Fn F) (i : Input) : Prop := ∀ u, S.linkUri i = .ok (some u) → ¬ CallsFunction S u.path.nav

/-- What comes after the change does not fail: the ETag can be computed, a changed stream can be read again, and an entity that
has been created can be shown in a type the client accepts, without a further change for its title. -/
structure AfterOk (S : Service D E C V X Fn F) (u : Uri' F) (i : Input) : Prop where
  etag : ∀ e, S.etag e = .ok ()
  reread : ∀ d e, ∃ e', S.reread d e = .ok e'
  shown : ∀ d e, S.acceptable d u.query i (.entity e) = true ∧ S.render d (.entity e) = .ok ()
  title : ∀ e, S.titled e i = none

/-- The body can be shown in a type the client accepts. -/
def Shown (S : Service D E C V X Fn F) (u : Uri' F) (i : Input) (d : D) (b : Body E C V X) : Prop :=
  S.acceptable d u.query i b = true ∧ S.render d b = .ok ()

/-- The path leads there and the options make sense. -/
def At (S : Service D E C V X Fn F) (u : Uri' F) (d : D) (r : Res E C V X) (a : Option E) : Prop := Leads S d u.path.nav r a ∧ Final S u r a

/-- The path has none of the options $metadata, $batch, $count, $links. -/
def Plain (u : Uri' F) : Prop := u.path.opt = none ∨ u.path.opt = some .value

/-- The entity that the URI in the body of the request leads to. -/
def Target (S : Service D E C V X Fn F) (i : Input) (d : D) (e : E) : Prop := ∃ u a, S.linkUri i = .ok (some u) ∧ At S u d (.entity e) a

/-- The answers that are not errors, and what has been done: the data before, the method, the data after and the answer. -/
inductive Served (S : Service D E C V X Fn F) (u : Uri' F) (i : Input) (d : D) : Method → D → Resp E C V X → Prop
  -- what is shown whatever the method
  | metadata {m r a} : u.path.opt = some .metadata → At S u d r a → Shown S u i d .metadata → Served S u i d m d ⟨200, .metadata, none⟩
  | countOne {m e a} : u.path.opt = some .count → At S u d (.entity e) a → Shown S u i d (.count 1) → Served S u i d m d ⟨200, .count 1, none⟩
  | count {m c a n} : u.path.opt = some .count → At S u d (.coll c) a → S.count d c u.query = .ok n → Shown S u i d (.count n) →
      Served S u i d m d ⟨200, .count n, none⟩
  | service {m r a} : Plain u → At S u d r a → (r = .model ∨ r = .null) → Shown S u i d .service → Served S u i d m d ⟨200, .service, none⟩
  | values {m x a} : Plain u → At S u d (.values x) a → Shown S u i d (.values x) → Served S u i d m d ⟨200, .values x, none⟩
  -- GET (and HEAD for entities)
  | links {c p} : u.path.opt = some .links → At S u d (.coll c) (some p) → S.apply d (.coll c) u.query = .ok () → Shown S u i d (.links c) →
      Served S u i d .get d ⟨200, .links c, none⟩
  | link {e p} : u.path.opt = some .links → At S u d (.entity e) (some p) → Shown S u i d (.link e) → Served S u i d .get d ⟨200, .link e, none⟩
  | entity {m e a} : m = .get ∨ m = .head → u.path.opt = none → At S u d (.entity e) a → S.apply d (.entity e) u.query = .ok () →
      Shown S u i d (.entity e) → Served S u i d m d ⟨200, .entity e, none⟩
  | stream {m e a} : m = .get ∨ m = .head → u.path.opt = some .value → At S u d (.entity e) a → S.hasStream e = true →
      Shown S u i d (.stream e) → Served S u i d m d ⟨200, .stream e, none⟩
  | feed {c a} : Plain u → At S u d (.coll c) a → S.apply d (.coll c) u.query = .ok () → Shown S u i d (.feed c) →
      Served S u i d .get d ⟨200, .feed c, none⟩
  | value {v a} : u.path.opt = none → At S u d (.value v) a → Shown S u i d (.value v) → Served S u i d .get d ⟨200, .value v, none⟩
  | raw {v a} : u.path.opt = some .value → At S u d (.value v) a → S.nonNull v = true → Shown S u i d (.raw v) → Served S u i d .get d ⟨200, .raw v, none⟩
  -- changes to entities
  | put {e a e' d'} : u.path.opt = none → At S u d (.entity e) a → S.readEntity d e i = .ok e' → S.update e' false d = (d', .ok ()) → S.etag e' = .ok () →
      Served S u i d .put d' ⟨204, .empty, none⟩
  | merge {e a e' d'} : u.path.opt = none → At S u d (.entity e) a → S.readEntity d e i = .ok e' → S.update e' true d = (d', .ok ()) → S.etag e' = .ok () →
      Served S u i d .merge d' ⟨204, .empty, none⟩
  | delete {e a d'} : u.path.opt = none → At S u d (.entity e) a → S.delete e d = (d', .ok ()) → Served S u i d .delete d' ⟨204, .empty, none⟩
  | putStream {e a d' e'} : u.path.opt = some .value → At S u d (.entity e) a → S.hasStream e = true → S.updateStream e i d = (d', .ok ()) →
      S.reread d' e = .ok e' → S.etag e' = .ok () → Served S u i d .put d' ⟨204, .empty, none⟩
  | insert {c a e0 e1 e2 d'} : Plain u → At S u d (.coll c) a → S.mediaLink c = false → S.newEntity c = .ok e0 → S.readEntity d e0 i = .ok e1 →
      S.insert c e1 d = (d', .ok e2) → Shown S u i d' (.entity e2) → Served S u i d .post d' ⟨201, .entity e2, some e2⟩
  | newStream {c a e d'} : Plain u → At S u d (.coll c) a → S.mediaLink c = true → S.slugKey c i = .ok () → S.newStream c i d = (d', .ok e) →
      S.titled e i = none → Shown S u i d' (.entity e) → Served S u i d .post d' ⟨201, .entity e, some e⟩
  | titledStream {c a e e' d1 d'} : Plain u → At S u d (.coll c) a → S.mediaLink c = true → S.slugKey c i = .ok () → S.newStream c i d = (d1, .ok e) →
      S.titled e i = some e' → S.update e' false d1 = (d', .ok ()) → Shown S u i d' (.entity e') → Served S u i d .post d' ⟨201, .entity e', some e'⟩
  -- changes to values
  | putValue {v v' p d'} : u.path.opt = none → At S u d (.value v) (some p) → S.readValue v false i = .ok v' → S.commit p v' d = (d', .ok ()) →
      S.etag p = .ok () → Served S u i d .put d' ⟨204, .empty, none⟩
  | putRaw {v v' p d'} : u.path.opt = some .value → At S u d (.value v) (some p) → S.nonNull v = true → S.readValue v true i = .ok v' →
      S.commit p v' d = (d', .ok ()) → S.etag p = .ok () → Served S u i d .put d' ⟨204, .empty, none⟩
  | deleteValue {v p d'} : u.path.opt = none → At S u d (.value v) (some p) → S.nullable v = true → S.commit p (S.setNull v) d = (d', .ok ()) →
      Served S u i d .delete d' ⟨204, .empty, none⟩
  -- changes to links
  | postLink {r p e d'} : u.path.opt = some .links → At S u d r (some p) → (r = .null ∨ ∃ c, r = .coll c) → Target S i d e →
      S.insertLink p (u.path.links.getD []) e d = (d', .ok ()) → Served S u i d .post d' ⟨204, .empty, none⟩
  | putLink {r p e d'} : u.path.opt = some .links → At S u d r (some p) → S.isMany p (u.path.links.getD []) = false → Target S i d e →
      S.replaceLink p (u.path.links.getD []) e d = (d', .ok ()) → Served S u i d .put d' ⟨204, .empty, none⟩
  | deleteLink {p e d'} : u.path.opt = some .links → At S u d (.entity e) (some p) →
      S.deleteLink p (u.path.links.getD []) e d = (d', .ok ()) → Served S u i d .delete d' ⟨204, .empty, none⟩

/-! ## Proofs -/

/-- Nothing is changed. -/
def Quiet {α : Type} (x : Act D α) : Prop := ∀ d, (x d).1 = d

theorem quiet_pure {α : Type} (a : α) : Quiet (Act.pure a : Act D α) := fun _ => rfl
theorem quiet_throw {α : Type} (e : Exc) : Quiet (Act.throw e : Act D α) := fun _ => rfl
theorem quiet_read {α : Type} (f : D → Except Exc α) : Quiet (Act.read f) := fun _ => rfl
theorem quiet_bind {α β : Type} {x : Act D α} {f : α → Act D β} (hx : Quiet x) (hf : ∀ a, Quiet (f a)) : Quiet (x >>= f) := by
  intro d
  rw [run_bind]
  have := hx d
  rcases h : x d with ⟨d1, e | a⟩
  · rw [h] at this; exact this
  · rw [h] at this; dsimp only at this ⊢; rw [hf a d1, this]

theorem quiet_reply (S : Service D E C V X Fn F) (q : QState F) (i : Input) (n : Nat) (b : Body E C V X) (l : Option E) : Quiet (reply S q i n b l) := by
  unfold reply
  refine quiet_bind (quiet_read _) fun ok => ?_
  split
  · exact quiet_bind (quiet_read _) fun _ => quiet_pure _
  · exact quiet_pure _

theorem handleTry_eq (S : Service D E C V X Fn F) (m : Method) (u : Uri' F) (i : Input) :
    handleTry S m u i = getResource S u >>= fun ra =>
      match u.path.opt with
      | some .metadata => reply S u.query i 200 .metadata none
      | some .batch => Act.pure ⟨404, .error, none⟩
      | some .count => match ra.1 with
        | .entity _ => reply S u.query i 200 (.count 1) none
        | .coll c => Act.read (fun d => S.count d c u.query) >>= fun n => reply S u.query i 200 (.count n) none
        | _ => Act.throw .badSegment
      | some .links => handleLinks S m u i ra.1 ra.2
      | _ => match ra.1 with
        | .entity e => handleEntity S m u i e
        | .coll c => handleColl S m u i c
        | .value v => handleValue S m u i v ra.2
        | .values x => reply S u.query i 200 (.values x) none
        | _ => reply S u.query i 200 .service none := rfl

theorem quiet_links (S : Service D E C V X Fn F) {m : Method} (hm : m = .get ∨ m = .head) (u : Uri' F) (i : Input) (r : Res E C V X) (p : Option E) :
    Quiet (handleLinks S m u i r p) := by
  unfold handleLinks
  cases p with
  | none => exact quiet_throw _
  | some p =>
    rcases hm with rfl | rfl
    · cases r with
      | coll c => exact quiet_bind (quiet_read _) fun _ => (quiet_reply _ _ _ _ _ _)
      | entity e => exact (quiet_reply _ _ _ _ _ _)
      | _ => exact quiet_throw _
    · exact quiet_throw _

theorem quiet_entity (S : Service D E C V X Fn F) {m : Method} (hm : m = .get ∨ m = .head) (u : Uri' F) (i : Input) (e : E) :
    Quiet (handleEntity S m u i e) := by
  have key : Quiet (if u.path.opt = some PathOpt.value then
      if S.hasStream e then reply S u.query i 200 (.stream e) none else Act.throw .badSegment
    else do
      let _ ← Act.read fun d => S.apply d (.entity e) u.query
      reply S u.query i 200 (.entity e) none) := by
    split
    · split
      · exact (quiet_reply _ _ _ _ _ _)
      · exact quiet_throw _
    · exact quiet_bind (quiet_read _) fun _ => (quiet_reply _ _ _ _ _ _)
  unfold handleEntity
  rcases hm with rfl | rfl <;> exact key

theorem quiet_coll (S : Service D E C V X Fn F) {m : Method} (hm : m = .get ∨ m = .head) (u : Uri' F) (i : Input) (c : C) :
    Quiet (handleColl S m u i c) := by
  unfold handleColl
  rcases hm with rfl | rfl
  · exact quiet_bind (quiet_read _) fun _ => (quiet_reply _ _ _ _ _ _)
  · exact quiet_throw _

theorem quiet_value (S : Service D E C V X Fn F) {m : Method} (hm : m = .get ∨ m = .head) (u : Uri' F) (i : Input) (v : V) (p : Option E) :
    Quiet (handleValue S m u i v p) := by
  unfold handleValue
  rcases hm with rfl | rfl
  · dsimp only
    split
    · split
      · exact (quiet_reply _ _ _ _ _ _)
      · exact quiet_throw _
    · exact (quiet_reply _ _ _ _ _ _)
  · exact quiet_throw _

theorem getResource_fst (S : Service D E C V X Fn F) (u : Uri' F) (d : D) (hc : ¬ CallsFunction S u.path.nav) : (getResource S u d).1 = d := by
  rcases getResource_spec S u d hc with ⟨r, a, -, -, h⟩ | ⟨r, a, e, -, -, h, -⟩ | ⟨_, _, _, _, _, e, -, -, -, h, -⟩ <;> rw [h]

/-- C137: a GET or HEAD request changes nothing, for every service, URI and state of the data, unless its path starts with a function
import. -/
theorem C137_safe (S : Service D E C V X Fn F) (m : Method) (hm : m = .get ∨ m = .head) (u : Uri' F) (i : Input) (d : D)
    (hc : ¬ CallsFunction S u.path.nav) : (handle S m u i d).1 = d := by
  have key : (handleTry S m u i d).1 = d := by
    rw [handleTry_eq, run_bind]
    have h0 := getResource_fst S u d hc
    rcases h : getResource S u d with ⟨d1, e | ⟨r, p⟩⟩
    · rw [h] at h0; exact h0
    · rw [h] at h0
      dsimp only at h0 ⊢
      subst h0
      rcases ho : u.path.opt with _ | (_ | _ | _ | _ | _) <;> dsimp only
      · cases r with
        | entity e => exact quiet_entity S hm u i e _
        | coll c => exact quiet_coll S hm u i c _
        | value v => exact quiet_value S hm u i v p _
        | values x => exact quiet_reply _ _ _ _ _ _ _
        | model => exact quiet_reply _ _ _ _ _ _ _
        | null => exact quiet_reply _ _ _ _ _ _ _
      · exact quiet_reply _ _ _ _ _ _ _
      · rfl
      · cases r with
        | entity e => exact quiet_reply _ _ _ _ _ _ _
        | coll c => exact quiet_bind (quiet_read _) (fun _ => (quiet_reply _ _ _ _ _ _)) _
        | _ => rfl
      · cases r with
        | entity e => exact quiet_entity S hm u i e _
        | coll c => exact quiet_coll S hm u i c _
        | value v => exact quiet_value S hm u i v p _
        | values x => exact quiet_reply _ _ _ _ _ _ _
        | model => exact quiet_reply _ _ _ _ _ _ _
        | null => exact quiet_reply _ _ _ _ _ _ _
      · exact quiet_links S hm u i r p _
  unfold handle
  rcases h : handleTry S m u i d with ⟨d1, e | r⟩ <;> rw [h] at key <;> exact key

/-- C137: the read-only server changes nothing whatever the method, and answers 403 to every method but GET and HEAD. -/
theorem C137_read_only (S : Service D E C V X Fn F) (m : Method) (u : Uri' F) (i : Input) (d : D) :
    (¬ CallsFunction S u.path.nav → (handleReadOnly S m u i d).1 = d) ∧
    (m ≠ .get → m ≠ .head → handleReadOnly S m u i d = (d, ⟨403, .error, none⟩)) := by
  unfold handleReadOnly
  constructor
  · intro hc
    split
    · next hm => exact C137_safe S m hm u i d hc
    · rfl
  · intro h1 h2
    rw [if_neg (by simp [h1, h2])]
    rfl

/-- C137, from the request: any writing of the method, any path and query, well formed or not. -/
theorem C137_request (ids : Ids) (fmt : Str → Option F) (pre : Str) (S : Service D E C V X Fn F) (r : Request) (d : D)
    (hc : ∀ path u, encodePathinfo r.path = some path → mkUri ids fmt pre path (if r.query = [] then none else some r.query) = .ok (some u) →
      ¬ CallsFunction S u.path.nav) :
    (upper r.method = chars "GET" ∨ upper r.method = chars "HEAD" → (call ids fmt pre (handle S) r d).1 = d) ∧
    (call ids fmt pre (handleReadOnly S) r d).1 = d := by
  have hget : upper r.method = chars "GET" ∨ upper r.method = chars "HEAD" → methodOf r.method = .get ∨ methodOf r.method = .head := by
    intro h
    unfold methodOf
    rcases h with h | h
    · left; rw [if_pos h]
    · right; rw [if_neg (by rw [h]; decide), if_pos h]
  constructor
  · intro hm
    unfold call
    cases hp : encodePathinfo r.path with
    | none => rfl
    | some path =>
      dsimp only
      cases hu : mkUri ids fmt pre path (if r.query = [] then none else some r.query) with
      | error e => rfl
      | ok o =>
        cases o with
        | none => rfl
        | some u =>
          dsimp only
          split
          · rfl
          · exact C137_safe S _ (hget hm) _ _ d (hc path u hp hu)
  · unfold call
    cases hp : encodePathinfo r.path with
    | none => rfl
    | some path =>
      dsimp only
      cases hu : mkUri ids fmt pre path (if r.query = [] then none else some r.query) with
      | error e => rfl
      | ok o =>
        cases o with
        | none => rfl
        | some u =>
          dsimp only
          split
          · rfl
          · exact (C137_read_only S _ _ _ d).1 (hc path u hp hu)

/-! ### The answers that are not errors -/

theorem reply_ok {S : Service D E C V X Fn F} {u : Uri' F} {i : Input} {n : Nat} {b : Body E C V X} {l : Option E} {d d' : D} {r : Resp E C V X} :
    reply S u.query i n b l d = (d', .ok r) ↔
      d' = d ∧ (Shown S u i d b ∧ r = ⟨n, b, l⟩ ∨ S.acceptable d u.query i b = false ∧ r = ⟨406, .error, none⟩) := by
  unfold reply Shown
  rw [bind_ok]
  simp only [run_read, Prod.mk.injEq, Except.ok.injEq]
  cases ha : S.acceptable d u.query i b with
  | true =>
    constructor
    · rintro ⟨d1, a, ⟨rfl, rfl⟩, h⟩
      rw [if_pos rfl] at h
      obtain ⟨d2, x, h1, h3⟩ := bind_ok.mp h
      obtain ⟨rfl, h2⟩ := Prod.mk.inj h1
      simp only [run_pure, Prod.mk.injEq, Except.ok.injEq] at h3
      exact ⟨h3.1.symm, .inl ⟨⟨rfl, h2⟩, h3.2.symm⟩⟩
    · rintro ⟨rfl, ⟨⟨-, h⟩, rfl⟩ | ⟨h, -⟩⟩
      · refine ⟨d', true, ⟨rfl, rfl⟩, ?_⟩
        rw [if_pos rfl, run_bind, run_read, h]; rfl
      · cases h
  | false =>
    constructor
    · rintro ⟨d1, a, ⟨rfl, rfl⟩, h⟩
      simp only [Bool.false_eq_true, if_false, run_pure, Prod.mk.injEq, Except.ok.injEq] at h
      exact ⟨h.1.symm, .inr ⟨rfl, h.2.symm⟩⟩
    · rintro ⟨rfl, ⟨⟨h, -⟩, -⟩ | ⟨-, rfl⟩⟩
      · cases h
      · exact ⟨d', false, ⟨rfl, rfl⟩, by simp⟩

theorem reply_good {S : Service D E C V X Fn F} {u : Uri' F} {i : Input} {n : Nat} {b : Body E C V X} {l : Option E} {d d' : D} {r : Resp E C V X}
    (h : reply S u.query i n b l d = (d', .ok r)) (hr : r.status < 400) : d' = d ∧ Shown S u i d b ∧ r = ⟨n, b, l⟩ := by
  obtain ⟨h1, h2 | ⟨-, rfl⟩⟩ := reply_ok.mp h
  · exact ⟨h1, h2⟩
  · simp at hr

theorem reply_shown {S : Service D E C V X Fn F} {u : Uri' F} {i : Input} (n : Nat) {b : Body E C V X} (l : Option E) {d : D}
    (h : Shown S u i d b) : reply S u.query i n b l d = (d, .ok ⟨n, b, l⟩) := reply_ok.mpr ⟨rfl, .inl ⟨h, rfl⟩⟩

theorem linkTarget_ok {S : Service D E C V X Fn F} {i : Input} {d d' : D} {e : E} (hl : NoFunctionLink S i) :
    linkTarget S i d = (d', .ok e) ↔ d' = d ∧ Target S i d e := by
  unfold linkTarget Target
  rw [bind_ok]
  simp only [run_lift, Prod.mk.injEq]
  constructor
  · rintro ⟨d1, a, ⟨rfl, h1⟩, h2⟩
    cases a with
    | none => cases h2
    | some u =>
      obtain ⟨d2, ⟨r, p⟩, h3, h4⟩ := bind_ok.mp h2
      obtain ⟨rfl, h5⟩ := (C136_found S u d d2 (hl u h1) r p).mp h3
      cases r with
      | entity e' =>
        simp only [run_pure, Prod.mk.injEq, Except.ok.injEq] at h4
        obtain ⟨rfl, rfl⟩ := h4
        exact ⟨rfl, u, p, h1, h5⟩
      | _ => cases h4
  · rintro ⟨rfl, u, a, h1, h2⟩
    refine ⟨d', some u, ⟨rfl, h1⟩, ?_⟩
    dsimp only
    rw [run_bind, (C136_found S u d' d' (hl u h1) _ _).mpr ⟨rfl, h2⟩]
    rfl

theorem commitTo_ok {S : Service D E C V X Fn F} {p : Option E} {v : V} {d d' : D} {e : E} :
    commitTo S p v d = (d', .ok e) ↔ p = some e ∧ S.commit e v d = (d', .ok ()) := by
  unfold commitTo
  cases p with
  | none => simp
  | some p =>
    dsimp only
    rw [bind_ok]
    constructor
    · rintro ⟨d1, a, h1, h2⟩
      simp only [run_pure, Prod.mk.injEq, Except.ok.injEq] at h2
      obtain ⟨rfl, rfl⟩ := h2
      exact ⟨rfl, h1⟩
    · rintro ⟨h, h1⟩
      cases h
      exact ⟨d', (), h1, rfl⟩

end Verif.Srv
