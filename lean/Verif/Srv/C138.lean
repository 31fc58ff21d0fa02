import Verif.Srv.C139
/-!
# C138: a request that is answered with an error changes nothing
-/
namespace Verif.Srv

open Verif.OData Verif.Text Verif.OUri

variable {D E C V X Fn F : Type}

/-- An exception or an answer that reports an error has changed nothing. -/
def ErrorQuiet (x : Act D (Resp E C V X)) : Prop :=
  ∀ d d', ((∃ e, x d = (d', .error e)) ∨ ∃ r, x d = (d', .ok r) ∧ 400 ≤ r.status) → d' = d

/-- It ends with an answer that is not an error. -/
def Finishes (x : Act D (Resp E C V X)) : Prop := ∀ d, ∃ d' r, x d = (d', .ok r) ∧ r.status < 400

theorem errorQuiet_of_quiet {x : Act D (Resp E C V X)} (h : Quiet x) : ErrorQuiet x := by
  rintro d d' (⟨e, h'⟩ | ⟨r, h', -⟩) <;> have := h d <;> rw [h'] at this <;> exact this

theorem errorQuiet_bind {α : Type} {x : Act D α} {f : α → Act D (Resp E C V X)} (hx : Quiet x) (hf : ∀ a, ErrorQuiet (f a)) :
    ErrorQuiet (x >>= f) := by
  intro d d' h
  have h0 := hx d
  rcases hxd : x d with ⟨d1, e | a⟩
  · rw [hxd] at h0
    dsimp only at h0
    subst h0
    rcases h with ⟨e', h⟩ | ⟨r, h, -⟩
    · rw [run_bind, hxd] at h; exact (Prod.mk.inj h).1.symm
    · rw [run_bind, hxd] at h; cases h
  · rw [hxd] at h0
    dsimp only at h0
    subst h0
    rw [run_bind, hxd] at h
    exact hf a d1 d' h

theorem errorQuiet_atomic {α : Type} {x : Act D α} {f : α → Act D (Resp E C V X)} (hx : AtomicOp x) (hf : ∀ a, Finishes (f a)) :
    ErrorQuiet (x >>= f) := by
  intro d d' h
  rcases hxd : x d with ⟨d1, e | a⟩
  · have := hx d d1 e hxd
    subst this
    rcases h with ⟨e', h⟩ | ⟨r, h, -⟩
    · rw [run_bind, hxd] at h; exact (Prod.mk.inj h).1.symm
    · rw [run_bind, hxd] at h; cases h
  · obtain ⟨d2, r2, h2, h3⟩ := hf a d1
    rw [run_bind, hxd] at h
    dsimp only at h
    rw [h2] at h
    rcases h with ⟨e', h⟩ | ⟨r, h, hr⟩
    · cases h
    · simp only [Prod.mk.injEq, Except.ok.injEq] at h
      obtain ⟨-, rfl⟩ := h
      omega

theorem finishes_empty : Finishes (replyEmpty : Act D (Resp E C V X)) := fun d => ⟨d, _, rfl, by simp⟩

theorem finishes_lift {α : Type} {x : Except Exc α} {f : α → Act D (Resp E C V X)} {a : α} (hx : x = .ok a) (hf : Finishes (f a)) :
    Finishes (Act.lift x >>= f) := by
  intro d
  obtain ⟨d', r, h1, h2⟩ := hf d
  exact ⟨d', r, lift_ok.mpr ⟨a, hx, h1⟩, h2⟩

theorem quiet_lift {α : Type} (x : Except Exc α) : Quiet (Act.lift x : Act D α) := fun _ => rfl

theorem finishes_shown {S : Service D E C V X Fn F} {u : Uri' F} {i : Input} (h : AfterOk S u i) (e : E) (l : Option E) :
    Finishes (reply S u.query i 201 (.entity e) l) := fun d => ⟨d, _, reply_shown _ _ (h.shown d e), by simp⟩

theorem quiet_getResource (S : Service D E C V X Fn F) (u : Uri' F) (hc : ¬ CallsFunction S u.path.nav) : Quiet (getResource S u) :=
  fun d => getResource_fst S u d hc

theorem quiet_linkTarget (S : Service D E C V X Fn F) (i : Input) (hl : NoFunctionLink S i) : Quiet (linkTarget S i) := by
  intro d
  unfold linkTarget
  rw [run_bind, run_lift]
  cases hu : S.linkUri i with
  | error e => rfl
  | ok o =>
    cases o with
    | none => rfl
    | some u =>
      refine quiet_bind (quiet_getResource S u (hl u hu)) (fun ra => ?_) d
      split
      · exact quiet_pure _
      · exact quiet_throw _

theorem errorQuiet_throw (e : Exc) : ErrorQuiet (Act.throw e : Act D (Resp E C V X)) := errorQuiet_of_quiet (quiet_throw e)

theorem errorQuiet_reply (S : Service D E C V X Fn F) (q : QState F) (i : Input) (n : Nat) (b : Body E C V X) (l : Option E) :
    ErrorQuiet (reply S q i n b l) := errorQuiet_of_quiet (quiet_reply _ _ _ _ _ _)

theorem errorQuiet_commit (S : Service D E C V X Fn F) (hA : Atomic S) (p : Option E) (v : V) (f : E → Act D (Resp E C V X)) (hf : ∀ e, Finishes (f e)) :
    ErrorQuiet (commitTo S p v >>= f) := by
  unfold commitTo
  cases p with
  | none =>
    intro d d' h
    rcases h with ⟨x, h⟩ | ⟨r', h, h3⟩
    · exact (Prod.mk.inj h).1.symm
    · cases h
  | some p =>
    have : ((do let _ ← S.commit p v; Act.pure p : Act D E) >>= f) = (S.commit p v >>= fun _ => f p) := by
      funext d
      rw [run_bind, run_bind, run_bind]
      rcases S.commit p v d with ⟨d1, e | a⟩ <;> rfl
    dsimp only
    rw [this]
    exact errorQuiet_atomic (hA.commit p v) (fun _ => hf p)

theorem errorQuiet_try (S : Service D E C V X Fn F) (hA : Atomic S) (m : Method) (u : Uri' F) (i : Input) (hc : ¬ CallsFunction S u.path.nav)
    (hl : NoFunctionLink S i) (hok : AfterOk S u i) : ErrorQuiet (handleTry S m u i) := by
  have etagThen : ∀ e, Finishes (Act.lift (S.etag e) >>= fun _ => (replyEmpty : Act D (Resp E C V X))) :=
    fun e => finishes_lift (hok.etag e) finishes_empty
  have hentity : ∀ e, ErrorQuiet (handleEntity S m u i e) := by
    intro e
    cases m with
    | get => exact errorQuiet_of_quiet (quiet_entity S (.inl rfl) u i e)
    | head => exact errorQuiet_of_quiet (quiet_entity S (.inr rfl) u i e)
    | put =>
      unfold handleEntity
      dsimp only
      split
      · split
        · refine errorQuiet_atomic (hA.updateStream e i) fun _ => ?_
          intro d
          obtain ⟨e', he'⟩ := hok.reread d e
          obtain ⟨d', r, h1, h2⟩ := etagThen e' d
          exact ⟨d', r, read_ok.mpr ⟨e', he', h1⟩, h2⟩
        · exact errorQuiet_throw _
      · exact errorQuiet_bind (quiet_read _) fun e' => errorQuiet_atomic (hA.update e' false) fun _ => etagThen e'
    | merge =>
      unfold handleEntity
      dsimp only
      split
      · exact errorQuiet_throw _
      · exact errorQuiet_bind (quiet_read _) fun e' => errorQuiet_atomic (hA.update e' true) fun _ => etagThen e'
    | delete =>
      unfold handleEntity
      dsimp only
      split
      · exact errorQuiet_throw _
      · exact errorQuiet_atomic (hA.delete e) fun _ => finishes_empty
    | post => exact errorQuiet_throw _
    | unknown => exact errorQuiet_throw _
  have hcoll : ∀ c, ErrorQuiet (handleColl S m u i c) := by
    intro c
    cases m with
    | get => exact errorQuiet_of_quiet (quiet_coll S (.inl rfl) u i c)
    | post =>
      unfold handleColl
      dsimp only
      split
      · refine errorQuiet_bind (quiet_lift _) fun _ => errorQuiet_atomic (hA.newStream c i) fun e => ?_
        rw [hok.title e]
        exact fun d => by
          obtain ⟨d', r, h1, h2⟩ := finishes_shown hok e (some e) d
          exact ⟨d', r, bind_ok.mpr ⟨d, e, rfl, h1⟩, h2⟩
      · exact errorQuiet_bind (quiet_lift _) fun e0 => errorQuiet_bind (quiet_read _) fun e1 =>
          errorQuiet_atomic (hA.insert c e1) fun e2 => finishes_shown hok e2 _
    | _ => exact errorQuiet_throw _
  have hvalue : ∀ v p, ErrorQuiet (handleValue S m u i v p) := by
    intro v p
    cases m with
    | get => exact errorQuiet_of_quiet (quiet_value S (.inl rfl) u i v p)
    | put =>
      unfold handleValue
      dsimp only
      split
      · exact errorQuiet_throw _
      · exact errorQuiet_bind (quiet_lift _) fun v' => errorQuiet_commit S hA p v' _ etagThen
    | delete =>
      unfold handleValue
      dsimp only
      split
      · exact errorQuiet_throw _
      · split
        · exact errorQuiet_throw _
        · exact errorQuiet_commit S hA p _ _ fun _ => finishes_empty
    | _ => exact errorQuiet_throw _
  have hlinks : ∀ x p, ErrorQuiet (handleLinks S m u i x p) := by
    intro x p
    cases p with
    | none => exact errorQuiet_throw _
    | some p =>
      cases m with
      | get => exact errorQuiet_of_quiet (quiet_links S (.inl rfl) u i x (some p))
      | post =>
        have key : ErrorQuiet (do
            let e ← linkTarget S i
            let _ ← S.insertLink p (u.path.links.getD []) e
            replyEmpty : Act D (Resp E C V X)) :=
          errorQuiet_bind (quiet_linkTarget S i hl) fun e => errorQuiet_atomic (hA.insertLink _ _ _) fun _ => finishes_empty
        cases x with
        | null => exact key
        | coll c => exact key
        | _ => exact errorQuiet_throw _
      | put =>
        unfold handleLinks
        dsimp only
        split
        · exact errorQuiet_throw _
        · exact errorQuiet_bind (quiet_linkTarget S i hl) fun e => errorQuiet_atomic (hA.replaceLink _ _ _) fun _ => finishes_empty
      | delete =>
        cases x with
        | entity e => exact errorQuiet_atomic (hA.deleteLink _ _ _) fun _ => finishes_empty
        | _ => exact errorQuiet_throw _
      | _ => exact errorQuiet_throw _
  rw [handleTry_eq]
  refine errorQuiet_bind (quiet_getResource S u hc) fun ra => ?_
  obtain ⟨x, p⟩ := ra
  have plain : ErrorQuiet (match x with
      | .entity e => handleEntity S m u i e
      | .coll c => handleColl S m u i c
      | .value v => handleValue S m u i v p
      | .values x => reply S u.query i 200 (.values x) none
      | _ => reply S u.query i 200 .service none) := by
    cases x with
    | entity e => exact hentity e
    | coll c => exact hcoll c
    | value v => exact hvalue v p
    | values x => exact errorQuiet_reply _ _ _ _ _ _
    | model => exact errorQuiet_reply _ _ _ _ _ _
    | null => exact errorQuiet_reply _ _ _ _ _ _
  rcases ho : u.path.opt with _ | (_ | _ | _ | _ | _) <;> dsimp only
  · exact plain
  · exact errorQuiet_reply _ _ _ _ _ _
  · exact errorQuiet_of_quiet (quiet_pure _)
  · cases x with
    | entity e => exact errorQuiet_reply _ _ _ _ _ _
    | coll c => exact errorQuiet_bind (quiet_read _) fun _ => errorQuiet_reply _ _ _ _ _ _
    | _ => exact errorQuiet_throw _
  · exact plain
  · exact hlinks x p

/-- C138: with a data layer whose operations are atomic, a request that is answered with a status of 400 or more has changed
nothing.  Partial: what follows the change must not fail (`AfterOk`) and no function import is called. -/
theorem C138_errors_change_nothing_partial (S : Service D E C V X Fn F) (hA : Atomic S) (m : Method) (u : Uri' F) (i : Input) (d : D)
    (hc : ¬ CallsFunction S u.path.nav) (hl : NoFunctionLink S i) (hok : AfterOk S u i) (h : 400 ≤ (handle S m u i d).2.status) :
    (handle S m u i d).1 = d := by
  have key := errorQuiet_try S hA m u i hc hl hok d
  unfold handle at h ⊢
  rcases ht : handleTry S m u i d with ⟨d1, e | r⟩ <;> rw [ht] at h <;> dsimp only at h ⊢
  · exact key d1 (.inl ⟨e, ht⟩)
  · exact key d1 (.inr ⟨r, ht, h⟩)

/-- The statuses of what does not raise. -/
def OkStatus (x : Act D (Resp E C V X)) : Prop := ∀ d d' r, x d = (d', .ok r) → r.status ∈ [200, 201, 204, 404, 406]

theorem okStatus_bind {α : Type} {x : Act D α} {f : α → Act D (Resp E C V X)} (h : ∀ a, OkStatus (f a)) : OkStatus (x >>= f) := by
  intro d d' r h'
  obtain ⟨d1, a, -, h2⟩ := bind_ok.mp h'
  exact h a d1 d' r h2

theorem okStatus_throw (e : Exc) : OkStatus (Act.throw e : Act D (Resp E C V X)) := by intro d d' r h; cases h
theorem okStatus_empty : OkStatus (replyEmpty : Act D (Resp E C V X)) := by
  intro d d' r h; obtain ⟨-, rfl⟩ := empty_ok.mp h; simp
theorem okStatus_reply (S : Service D E C V X Fn F) (u : Uri' F) (i : Input) (n : Nat) (hn : n = 200 ∨ n = 201) (b : Body E C V X) (l : Option E) :
    OkStatus (reply S u.query i n b l) := by
  intro d d' r h
  obtain ⟨-, ⟨-, rfl⟩ | ⟨-, rfl⟩⟩ := reply_ok.mp h
  · rcases hn with rfl | rfl <;> simp
  · simp

/-- C138: these are the only statuses. -/
theorem C138_status (S : Service D E C V X Fn F) (m : Method) (u : Uri' F) (i : Input) (d : D) :
    (handle S m u i d).2.status ∈ [200, 201, 204, 400, 403, 404, 405, 406, 500] := by
  have r2 : ∀ b l, OkStatus (reply S u.query i 200 b l) := fun b l => okStatus_reply S u i 200 (.inl rfl) b l
  have r3 : ∀ b l, OkStatus (reply S u.query i 201 b l) := fun b l => okStatus_reply S u i 201 (.inr rfl) b l
  have hentity : ∀ e, OkStatus (handleEntity S m u i e) := by
    intro e
    unfold handleEntity
    cases m <;> dsimp only <;> repeat' split
    all_goals first | exact okStatus_throw _ | exact r2 _ _ | skip
    · exact okStatus_bind fun _ => r2 _ _
    · exact okStatus_bind fun _ => r2 _ _
    · exact okStatus_bind fun _ => okStatus_bind fun _ => okStatus_bind fun _ => okStatus_empty
    · exact okStatus_bind fun _ => okStatus_bind fun _ => okStatus_bind fun _ => okStatus_empty
    · exact okStatus_bind fun _ => okStatus_bind fun _ => okStatus_bind fun _ => okStatus_empty
    · exact okStatus_bind fun _ => okStatus_empty
  have hcoll : ∀ c, OkStatus (handleColl S m u i c) := by
    intro c
    unfold handleColl
    cases m <;> dsimp only
    all_goals first | exact okStatus_throw _ | skip
    · exact okStatus_bind fun _ => r2 _ _
    · split
      · exact okStatus_bind fun _ => okStatus_bind fun _ => okStatus_bind fun _ => r3 _ _
      · exact okStatus_bind fun _ => okStatus_bind fun _ => okStatus_bind fun _ => r3 _ _
  have hvalue : ∀ v p, OkStatus (handleValue S m u i v p) := by
    intro v p
    unfold handleValue
    cases m <;> dsimp only <;> repeat' split
    all_goals first | exact okStatus_throw _ | exact r2 _ _ | skip
    · exact okStatus_bind fun _ => okStatus_bind fun _ => okStatus_bind fun _ => okStatus_empty
    · exact okStatus_bind fun _ => okStatus_empty
  have hlinks : ∀ x p, OkStatus (handleLinks S m u i x p) := by
    intro x p
    unfold handleLinks
    cases p with
    | none => exact okStatus_throw _
    | some p =>
      cases m <;> cases x <;> dsimp only
      all_goals first | exact okStatus_throw _ | exact r2 _ _ | exact okStatus_bind fun _ => r2 _ _ |
        exact okStatus_bind fun _ => okStatus_bind fun _ => okStatus_empty | exact okStatus_bind fun _ => okStatus_empty | skip
      all_goals
        split
        · exact okStatus_throw _
        · exact okStatus_bind fun _ => okStatus_bind fun _ => okStatus_empty
  have htry : OkStatus (handleTry S m u i) := by
    rw [handleTry_eq]
    refine okStatus_bind fun ra => ?_
    obtain ⟨x, p⟩ := ra
    have plain : OkStatus (match x with
        | .entity e => handleEntity S m u i e
        | .coll c => handleColl S m u i c
        | .value v => handleValue S m u i v p
        | .values x => reply S u.query i 200 (.values x) none
        | _ => reply S u.query i 200 .service none) := by
      cases x with
      | entity e => exact hentity e
      | coll c => exact hcoll c
      | value v => exact hvalue v p
      | values x => exact r2 _ _
      | model => exact r2 _ _
      | null => exact r2 _ _
    rcases ho : u.path.opt with _ | (_ | _ | _ | _ | _) <;> dsimp only
    · exact plain
    · exact r2 _ _
    · intro d d' r h
      simp only [run_pure, Prod.mk.injEq, Except.ok.injEq] at h
      obtain ⟨-, rfl⟩ := h
      simp
    · cases x with
      | entity e => exact r2 _ _
      | coll c => exact okStatus_bind fun _ => r2 _ _
      | _ => exact okStatus_throw _
    · exact plain
    · exact hlinks x p
  unfold handle
  rcases ht : handleTry S m u i d with ⟨d1, e | r⟩ <;> dsimp only
  · cases e <;> simp [errorResp, statusOf]
  · have := htry d d1 r ht
    simp only [List.mem_cons, List.not_mem_nil, or_false] at this ⊢
    omega

/-! ## A service -/

/-- A service with one set, "S", of entities that are numbers, and a function import, "F"; the data is the list of the entities.
Nothing but "json" is acceptable. -/
def demo : Service (List Nat) Nat Unit Unit Unit Unit Unit where
  find n := if n = [83] then some (.set ()) else if n = [70] then some (.func ()) else none
  exec _ _ d := (0 :: d, .ok (.coll ()))
  entityAt d _ ks := match ks with
    | [(_, .i32 k)] => if k.toNat ∈ d then .ok k.toNat else .error .key
    | _ => .error .key
  property _ n := if n = [80] then some (.value ()) else none
  field _ := none
  isMany _ _ := false
  openNav _ _ := ()
  hasStream _ := false
  mediaLink _ := false
  nonNull _ := true
  nullable _ := true
  count d _ _ := .ok d.length
  apply _ _ _ := .ok ()
  acceptable _ _ i _ := i.accept == none
  render _ _ := .ok ()
  etag _ := .ok ()
  linkUri _ := .ok none
  readEntity _ _ i := .ok i.body.length
  newEntity _ := .ok 0
  readValue _ _ _ := .ok ()
  setNull _ := ()
  slugKey _ _ := .ok ()
  titled _ _ := none
  insertLink _ _ _ d := (d, .error .notImplemented)
  replaceLink _ _ _ d := (d, .error .notImplemented)
  deleteLink _ _ _ d := (d, .error .notImplemented)
  updateStream _ _ d := (d, .error .notImplemented)
  reread _ e := .ok e
  update _ _ d := (d, .ok ())
  delete e d := (d.erase e, .ok ())
  newStream _ _ d := (d, .error .notImplemented)
  insert _ e d := if e ∈ d then (d, .error .constraint) else (e :: d, .ok e)
  commit _ _ d := (d, .ok ())

/-- The URI of a path. -/
def at' (nav : List Seg) (o : Option PathOpt := none) : Uri' Unit := ⟨⟨nav, o, none⟩, ⟨[], [], []⟩⟩
/-- A request body of three characters. -/
def three (accept : Option Str := none) : Input := ⟨none, none, accept, [1, 2, 3]⟩

/-- Non-vacuity: the service is atomic, and requests with any type acceptable fail only before a change. -/
example : Atomic demo := by
  constructor <;> intros <;> intro d d' e h <;> simp [demo] at h <;> try exact h.1.symm
  split at h <;> simp at h
  exact h.1.symm
example (u : Uri' Unit) : AfterOk demo u (three none) :=
  ⟨fun _ => rfl, fun _ e => ⟨e, rfl⟩, fun _ _ => ⟨rfl, rfl⟩, fun _ => rfl⟩
example : NoFunctionLink demo (three none) := by intro u h; simp [demo] at h
example : ¬ CallsFunction demo (at' [([83], some [([], .i32 3)])]).path.nav := by
  rintro ⟨s, r, f, h, hf⟩
  obtain ⟨rfl, rfl⟩ := List.cons.inj h
  simp [demo] at hf
/-- POST adds an entity and answers 201; again, it is refused with 403; GET shows it; DELETE removes it; then it is 404. -/
example : ((handle demo .post (at' [([83], none)]) (three none) []).1, (handle demo .post (at' [([83], none)]) (three none) []).2.status) = ([3], 201) ∧
    ((handle demo .post (at' [([83], none)]) (three none) [3]).1, (handle demo .post (at' [([83], none)]) (three none) [3]).2.status) = ([3], 403) ∧
    (handle demo .get (at' [([83], some [([], .i32 3)])]) (three none) [3]).2.status = 200 ∧
    ((handle demo .delete (at' [([83], some [([], .i32 3)])]) (three none) [3]).1,
      (handle demo .delete (at' [([83], some [([], .i32 3)])]) (three none) [3]).2.status) = ([], 204) ∧
    (handle demo .get (at' [([83], some [([], .i32 3)])]) (three none) []).2.status = 404 := by decide +kernel

/-- Violation of C137: a GET request for a function import executes it, on the read-only server too. -/
theorem C137_function_violation : (handleReadOnly demo .get (at' [([70], none)]) (three none) []).1 = [0] := by decide +kernel

/-- Violation of C138: POST with an Accept header that allows none of the types of the server: 406, but the entity has been added. -/
theorem C138_not_acceptable_violation : (handle demo .post (at' [([83], none)]) (three (some [120])) []).1 = [3] ∧
    (handle demo .post (at' [([83], none)]) (three (some [120])) []).2.status = 406 := by decide +kernel

/-- Violation of C139: what the path option $value is given for is not checked: on a collection it is ignored; and a method that
makes no sense, POST to $count, DELETE of the service, is answered 200 although nothing is done; HEAD for a collection is refused. -/
theorem C139_lenient_violation :
    (handle demo .get (at' [([83], none)] (some .value)) (three none) []).2.status = 200 ∧
    (handle demo .post (at' [([83], none)] (some .count)) (three none) []).2.status = 200 ∧
    (handle demo .delete (at' []) (three none) []).2.status = 200 ∧
    (handle demo .head (at' [([83], none)]) (three none) []).2.status = 400 := by decide +kernel

end Verif.Srv
