import Verif.Srv.Effects
/-!
# C138, C139: answers and changes
-/
namespace Verif.Srv

open Verif.OData Verif.Text Verif.OUri

variable {D E C V X Fn F : Type}

theorem empty_ok {d d' : D} {r : Resp E C V X} : (replyEmpty : Act D (Resp E C V X)) d = (d', .ok r) ↔ d' = d ∧ r = ⟨204, .empty, none⟩ := by
  unfold replyEmpty
  simp only [run_pure, Prod.mk.injEq, Except.ok.injEq]
  exact ⟨fun h => ⟨h.1.symm, h.2.symm⟩, fun h => ⟨h.1.symm, h.2.symm⟩⟩

theorem read_ok {α β : Type} {f : D → Except Exc α} {g : α → Act D β} {d d' : D} {b : β} :
    (Act.read f >>= g) d = (d', .ok b) ↔ ∃ a, f d = .ok a ∧ g a d = (d', .ok b) := by
  rw [bind_ok]
  constructor
  · rintro ⟨d1, a, h1, h2⟩
    obtain ⟨rfl, h3⟩ := Prod.mk.inj h1
    exact ⟨a, h3, h2⟩
  · rintro ⟨a, h1, h2⟩
    exact ⟨d, a, by rw [run_read, h1], h2⟩

theorem lift_ok {α β : Type} {x : Except Exc α} {g : α → Act D β} {d d' : D} {b : β} :
    (Act.lift x >>= g) d = (d', .ok b) ↔ ∃ a, x = .ok a ∧ g a d = (d', .ok b) := by
  rw [bind_ok]
  constructor
  · rintro ⟨d1, a, h1, h2⟩
    obtain ⟨rfl, h3⟩ := Prod.mk.inj h1
    exact ⟨a, h3, h2⟩
  · rintro ⟨a, h1, h2⟩
    exact ⟨d, a, by rw [run_lift, h1], h2⟩

section
variable (S : Service D E C V X Fn F) (u : Uri' F) (i : Input) (d d' : D) (r : Resp E C V X)

/-- The five answers that do not depend on what is at the end of the path. -/
theorem shown_iff (n : Nat) (b : Body E C V X) (l : Option E) :
    (reply S u.query i n b l d = (d', .ok r) ∧ r.status < 400) ↔ (n < 400 ∧ d' = d ∧ Shown S u i d b ∧ r = ⟨n, b, l⟩) := by
  constructor
  · rintro ⟨h, hr⟩
    obtain ⟨h1, h2, rfl⟩ := reply_good h hr
    exact ⟨hr, h1, h2, rfl⟩
  · rintro ⟨hn, rfl, h, rfl⟩
    exact ⟨reply_shown n l h, hn⟩

theorem entity_forward (m : Method) (e : E) (a : Option E) (hp : Plain u) (ha : At S u d (.entity e) a)
    (h : handleEntity S m u i e d = (d', .ok r)) (hr : r.status < 400) : Served S u i d m d' r := by
  unfold handleEntity at h
  dsimp only at h
  have getIt : m = .get ∨ m = .head → (if u.path.opt = some PathOpt.value then
      if S.hasStream e then reply S u.query i 200 (.stream e) none else Act.throw .badSegment
    else do
      let _ ← Act.read fun d => S.apply d (.entity e) u.query
      reply S u.query i 200 (.entity e) none) d = (d', .ok r) → Served S u i d m d' r := by
    intro hm h
    split at h
    · next ho =>
      split at h
      · next hs =>
        obtain ⟨rfl, h2, rfl⟩ := reply_good h hr
        exact .stream hm ho ha hs h2
      · cases h
    · next ho =>
      obtain ⟨_, h1, h2⟩ := read_ok.mp h
      obtain ⟨rfl, h3, rfl⟩ := reply_good h2 hr
      exact .entity hm (hp.resolve_right ho) ha h1 h3
  have change : ∀ mg : Bool, (do
      let e ← Act.read fun d => S.readEntity d e i
      let _ ← S.update e mg
      let _ ← Act.lift (S.etag e)
      replyEmpty : Act D (Resp E C V X)) d = (d', .ok r) →
      ∃ e', S.readEntity d e i = .ok e' ∧ S.update e' mg d = (d', .ok ()) ∧ S.etag e' = .ok () ∧ r = ⟨204, .empty, none⟩ := by
    intro mg h
    obtain ⟨e', h1, h2⟩ := read_ok.mp h
    obtain ⟨d1, _, h3, h4⟩ := bind_ok.mp h2
    obtain ⟨_, h5, h6⟩ := lift_ok.mp h4
    obtain ⟨rfl, rfl⟩ := empty_ok.mp h6
    exact ⟨e', h1, h3, h5, rfl⟩
  cases m with
  | get => exact getIt (.inl rfl) h
  | head => exact getIt (.inr rfl) h
  | put =>
    dsimp only at h
    split at h
    · next ho =>
      split at h
      · next hs =>
        obtain ⟨d1, _, h3, h4⟩ := bind_ok.mp h
        obtain ⟨e', h5, h6⟩ := read_ok.mp h4
        obtain ⟨_, h7, h8⟩ := lift_ok.mp h6
        obtain ⟨rfl, rfl⟩ := empty_ok.mp h8
        exact .putStream ho ha hs h3 h5 h7
      · cases h
    · next ho =>
      obtain ⟨e', h1, h2, h3, rfl⟩ := change false h
      exact .put (hp.resolve_right ho) ha h1 h2 h3
  | merge =>
    dsimp only at h
    split at h
    · cases h
    · next ho =>
      obtain ⟨e', h1, h2, h3, rfl⟩ := change true h
      exact .merge (hp.resolve_right ho) ha h1 h2 h3
  | delete =>
    dsimp only at h
    split at h
    · cases h
    · next ho =>
      obtain ⟨d1, _, h3, h4⟩ := bind_ok.mp h
      obtain ⟨rfl, rfl⟩ := empty_ok.mp h4
      exact .delete (hp.resolve_right ho) ha h3
  | post => cases h
  | unknown => cases h

theorem coll_forward (m : Method) (c : C) (a : Option E) (hp : Plain u) (ha : At S u d (.coll c) a)
    (h : handleColl S m u i c d = (d', .ok r)) (hr : r.status < 400) : Served S u i d m d' r := by
  unfold handleColl at h
  cases m with
  | get =>
    obtain ⟨_, h1, h2⟩ := read_ok.mp h
    obtain ⟨rfl, h3, rfl⟩ := reply_good h2 hr
    exact .feed hp ha h1 h3
  | post =>
    dsimp only at h
    split at h
    · next hm =>
      obtain ⟨_, h1, h2⟩ := lift_ok.mp h
      obtain ⟨d1, e, h3, h4⟩ := bind_ok.mp h2
      cases ht : S.titled e i with
      | none =>
        obtain ⟨d2, e2, h5, h6⟩ := bind_ok.mp h4
        rw [ht] at h5
        obtain ⟨rfl, h5⟩ := Prod.mk.inj h5
        cases h5
        obtain ⟨rfl, h7, rfl⟩ := reply_good h6 hr
        exact .newStream hp ha hm h1 h3 ht h7
      | some e' =>
        obtain ⟨d2, e2, h5, h6⟩ := bind_ok.mp h4
        rw [ht] at h5
        obtain ⟨d3, _, h7, h8⟩ := bind_ok.mp h5
        obtain ⟨rfl, h8⟩ := Prod.mk.inj h8
        cases h8
        obtain ⟨rfl, h9, rfl⟩ := reply_good h6 hr
        exact .titledStream hp ha hm h1 h3 ht h7 h9
    · next hm =>
      obtain ⟨e0, h1, h2⟩ := lift_ok.mp h
      obtain ⟨e1, h3, h4⟩ := read_ok.mp h2
      obtain ⟨d1, e2, h5, h6⟩ := bind_ok.mp h4
      obtain ⟨rfl, h7, rfl⟩ := reply_good h6 hr
      exact .insert hp ha (by simpa using hm) h1 h3 h5 h7
  | _ => cases h

theorem value_forward (m : Method) (v : V) (a : Option E) (hp : Plain u) (ha : At S u d (.value v) a)
    (h : handleValue S m u i v a d = (d', .ok r)) (hr : r.status < 400) : Served S u i d m d' r := by
  unfold handleValue at h
  cases m with
  | get =>
    dsimp only at h
    split at h
    · next ho =>
      split at h
      · next hn =>
        obtain ⟨rfl, h2, rfl⟩ := reply_good h hr
        exact .raw ho ha hn h2
      · cases h
    · next ho =>
      obtain ⟨rfl, h2, rfl⟩ := reply_good h hr
      exact .value (hp.resolve_right ho) ha h2
  | put =>
    dsimp only at h
    split at h
    · cases h
    · next hn =>
      obtain ⟨v', h1, h2⟩ := lift_ok.mp h
      obtain ⟨d1, p, h3, h4⟩ := bind_ok.mp h2
      obtain ⟨rfl, h5⟩ := commitTo_ok.mp h3
      obtain ⟨_, h6, h7⟩ := lift_ok.mp h4
      obtain ⟨rfl, rfl⟩ := empty_ok.mp h7
      by_cases ho : u.path.opt = some PathOpt.value
      · simp only [ho, decide_true, Bool.true_and, Bool.not_eq_true', Bool.not_eq_false] at hn
        simp only [ho, decide_true] at h1
        exact .putRaw ho ha hn h1 h5 h6
      · simp only [ho, decide_false] at h1
        exact .putValue (hp.resolve_right ho) ha h1 h5 h6
  | delete =>
    dsimp only at h
    split at h
    · cases h
    · next ho =>
      split at h
      · cases h
      · next hn =>
        obtain ⟨d1, p, h3, h4⟩ := bind_ok.mp h
        obtain ⟨rfl, h5⟩ := commitTo_ok.mp h3
        obtain ⟨rfl, rfl⟩ := empty_ok.mp h4
        exact .deleteValue (hp.resolve_right ho) ha (by simpa using hn) h5
  | _ => cases h

theorem links_forward (m : Method) (x : Res E C V X) (a : Option E) (ho : u.path.opt = some .links) (hl : NoFunctionLink S i) (ha : At S u d x a)
    (h : handleLinks S m u i x a d = (d', .ok r)) (hr : r.status < 400) : Served S u i d m d' r := by
  unfold handleLinks at h
  cases a with
  | none => cases h
  | some p =>
    dsimp only at h
    cases m with
    | get =>
      cases x with
      | coll c =>
        obtain ⟨_, h1, h2⟩ := read_ok.mp h
        obtain ⟨rfl, h3, rfl⟩ := reply_good h2 hr
        exact .links ho ha h1 h3
      | entity e =>
        obtain ⟨rfl, h2, rfl⟩ := reply_good h hr
        exact .link ho ha h2
      | _ => cases h
    | post =>
      have key : (x = .null ∨ ∃ c, x = .coll c) → (do
          let e ← linkTarget S i
          let _ ← S.insertLink p (u.path.links.getD []) e
          replyEmpty : Act D (Resp E C V X)) d = (d', .ok r) → Served S u i d .post d' r := by
        intro hx h
        obtain ⟨d1, e, h1, h2⟩ := bind_ok.mp h
        obtain ⟨rfl, h3⟩ := (linkTarget_ok hl).mp h1
        obtain ⟨d2, _, h4, h5⟩ := bind_ok.mp h2
        obtain ⟨rfl, rfl⟩ := empty_ok.mp h5
        exact .postLink ho ha hx h3 h4
      cases x with
      | null => exact key (.inl rfl) h
      | coll c => exact key (.inr ⟨c, rfl⟩) h
      | _ => cases h
    | put =>
      dsimp only at h
      split at h
      · cases h
      · next hm =>
        obtain ⟨d1, e, h1, h2⟩ := bind_ok.mp h
        obtain ⟨rfl, h3⟩ := (linkTarget_ok hl).mp h1
        obtain ⟨d2, _, h4, h5⟩ := bind_ok.mp h2
        obtain ⟨rfl, rfl⟩ := empty_ok.mp h5
        exact .putLink ho ha (by simpa using hm) h3 h4
    | delete =>
      cases x with
      | entity e =>
        obtain ⟨d2, _, h4, h5⟩ := bind_ok.mp h
        obtain ⟨rfl, rfl⟩ := empty_ok.mp h5
        exact .deleteLink ho ha h4
      | _ => cases h
    | _ => cases h

theorem try_forward (m : Method) (hc : ¬ CallsFunction S u.path.nav) (hl : NoFunctionLink S i)
    (h : handleTry S m u i d = (d', .ok r)) (hr : r.status < 400) : Served S u i d m d' r := by
  rw [handleTry_eq] at h
  obtain ⟨d1, ⟨x, a⟩, h1, h2⟩ := bind_ok.mp h
  obtain ⟨rfl, ha⟩ := (C136_found S u d d1 hc x a).mp h1
  dsimp only at h2
  have plain : Plain u → (match x with
      | .entity e => handleEntity S m u i e
      | .coll c => handleColl S m u i c
      | .value v => handleValue S m u i v a
      | .values x => reply S u.query i 200 (.values x) none
      | _ => reply S u.query i 200 .service none) d1 = (d', .ok r) → Served S u i d1 m d' r := by
    intro hp h2
    cases x with
    | entity e => exact entity_forward S u i _ d' r m e a hp ha h2 hr
    | coll c => exact coll_forward S u i _ d' r m c a hp ha h2 hr
    | value v => exact value_forward S u i _ d' r m v a hp ha h2 hr
    | values x => obtain ⟨rfl, h3, rfl⟩ := reply_good h2 hr; exact .values hp ha h3
    | model => obtain ⟨rfl, h3, rfl⟩ := reply_good h2 hr; exact .service hp ha (.inl rfl) h3
    | null => obtain ⟨rfl, h3, rfl⟩ := reply_good h2 hr; exact .service hp ha (.inr rfl) h3
  rcases ho : u.path.opt with _ | (_ | _ | _ | _ | _) <;> rw [ho] at h2 <;> dsimp only at h2
  · exact plain (.inl ho) h2
  · obtain ⟨rfl, h3, rfl⟩ := reply_good h2 hr
    exact .metadata ho ha h3
  · obtain ⟨rfl, rfl⟩ : d1 = d' ∧ r = ⟨404, .error, none⟩ := by
      simp only [run_pure, Prod.mk.injEq, Except.ok.injEq] at h2
      exact ⟨h2.1, h2.2.symm⟩
    simp at hr
  · cases x with
    | entity e => obtain ⟨rfl, h3, rfl⟩ := reply_good h2 hr; exact .countOne ho ha h3
    | coll c =>
      obtain ⟨n, h3, h4⟩ := read_ok.mp h2
      obtain ⟨rfl, h5, rfl⟩ := reply_good h4 hr
      exact .count ho ha h3 h5
    | _ => cases h2
  · exact plain (.inr ho) h2
  · exact links_forward S u i _ d' r m x a ho hl ha h2 hr

theorem try_backward (m : Method) (hc : ¬ CallsFunction S u.path.nav) (hl : NoFunctionLink S i) (h : Served S u i d m d' r) :
    handleTry S m u i d = (d', .ok r) ∧ r.status < 400 := by
  have found : ∀ x a, At S u d x a → getResource S u d = (d, .ok (x, a)) := fun x a ha => (C136_found S u d d hc x a).mpr ⟨rfl, ha⟩
  have plain : ∀ x a, Plain u → At S u d x a → handleTry S m u i d = (match x with
      | .entity e => handleEntity S m u i e
      | .coll c => handleColl S m u i c
      | .value v => handleValue S m u i v a
      | .values x => reply S u.query i 200 (.values x) none
      | _ => reply S u.query i 200 .service none) d := by
    intro x a hp ha
    rw [handleTry_eq, run_bind, found x a ha]
    rcases hp with ho | ho <;> rw [ho] <;> cases x <;> rfl
  cases h with
  | metadata ho ha hs => rw [handleTry_eq, run_bind, found _ _ ha, ho]; exact ⟨reply_shown _ _ hs, by simp⟩
  | countOne ho ha hs => rw [handleTry_eq, run_bind, found _ _ ha, ho]; exact ⟨reply_shown _ _ hs, by simp⟩
  | count ho ha hn hs =>
    rw [handleTry_eq, run_bind, found _ _ ha, ho]
    exact ⟨read_ok.mpr ⟨_, hn, reply_shown _ _ hs⟩, by simp⟩
  | service hp ha hx hs =>
    rw [plain _ _ hp ha]
    rcases hx with rfl | rfl <;> exact ⟨reply_shown _ _ hs, by simp⟩
  | values hp ha hs => rw [plain _ _ hp ha]; exact ⟨reply_shown _ _ hs, by simp⟩
  | links ho ha hq hs =>
    rw [handleTry_eq, run_bind, found _ _ ha, ho]
    exact ⟨read_ok.mpr ⟨_, hq, reply_shown _ _ hs⟩, by simp⟩
  | link ho ha hs =>
    rw [handleTry_eq, run_bind, found _ _ ha, ho]
    exact ⟨reply_shown _ _ hs, by simp⟩
  | entity hm ho ha hq hs =>
    rw [plain _ _ (.inl ho) ha]
    dsimp only
    unfold handleEntity
    refine ⟨?_, by simp⟩
    rcases hm with rfl | rfl <;> simp only [ho, reduceCtorEq, if_false] <;> exact read_ok.mpr ⟨_, hq, reply_shown _ _ hs⟩
  | stream hm ho ha hst hs =>
    rw [plain _ _ (.inr ho) ha]
    dsimp only
    unfold handleEntity
    refine ⟨?_, by simp⟩
    rcases hm with rfl | rfl <;> simp only [ho, hst, if_true] <;> exact reply_shown _ _ hs
  | feed hp ha hq hs => rw [plain _ _ hp ha]; exact ⟨read_ok.mpr ⟨_, hq, reply_shown _ _ hs⟩, by simp⟩
  | value ho ha hs =>
    rw [plain _ _ (.inl ho) ha]
    refine ⟨?_, by simp⟩
    unfold handleValue
    simp only [ho, reduceCtorEq, if_false]
    exact reply_shown _ _ hs
  | raw ho ha hn hs =>
    rw [plain _ _ (.inr ho) ha]
    refine ⟨?_, by simp⟩
    unfold handleValue
    simp only [ho, hn, if_true]
    exact reply_shown _ _ hs
  | put ho ha h1 h2 h3 =>
    rw [plain _ _ (.inl ho) ha]
    refine ⟨?_, by simp⟩
    unfold handleEntity
    simp only [ho, reduceCtorEq, if_false]
    exact read_ok.mpr ⟨_, h1, bind_ok.mpr ⟨_, _, h2, lift_ok.mpr ⟨_, h3, empty_ok.mpr ⟨rfl, rfl⟩⟩⟩⟩
  | merge ho ha h1 h2 h3 =>
    rw [plain _ _ (.inl ho) ha]
    refine ⟨?_, by simp⟩
    unfold handleEntity
    simp only [ho, reduceCtorEq, if_false]
    exact read_ok.mpr ⟨_, h1, bind_ok.mpr ⟨_, _, h2, lift_ok.mpr ⟨_, h3, empty_ok.mpr ⟨rfl, rfl⟩⟩⟩⟩
  | delete ho ha h1 =>
    rw [plain _ _ (.inl ho) ha]
    refine ⟨?_, by simp⟩
    unfold handleEntity
    simp only [ho, reduceCtorEq, if_false]
    exact bind_ok.mpr ⟨_, _, h1, empty_ok.mpr ⟨rfl, rfl⟩⟩
  | putStream ho ha hs h1 h2 h3 =>
    rw [plain _ _ (.inr ho) ha]
    refine ⟨?_, by simp⟩
    unfold handleEntity
    simp only [ho, hs, if_true]
    exact bind_ok.mpr ⟨_, _, h1, read_ok.mpr ⟨_, h2, lift_ok.mpr ⟨_, h3, empty_ok.mpr ⟨rfl, rfl⟩⟩⟩⟩
  | insert hp ha hm h1 h2 h3 hs =>
    rw [plain _ _ hp ha]
    refine ⟨?_, by simp⟩
    unfold handleColl
    simp only [hm, Bool.false_eq_true, if_false]
    exact lift_ok.mpr ⟨_, h1, read_ok.mpr ⟨_, h2, bind_ok.mpr ⟨_, _, h3, reply_shown _ _ hs⟩⟩⟩
  | newStream hp ha hm h1 h2 ht hs =>
    rw [plain _ _ hp ha]
    refine ⟨?_, by simp⟩
    unfold handleColl
    simp only [hm, if_true]
    refine lift_ok.mpr ⟨_, h1, bind_ok.mpr ⟨_, _, h2, bind_ok.mpr ⟨_, _, ?_, reply_shown _ _ hs⟩⟩⟩
    rw [ht]; rfl
  | titledStream hp ha hm h1 h2 ht h3 hs =>
    rw [plain _ _ hp ha]
    refine ⟨?_, by simp⟩
    unfold handleColl
    simp only [hm, if_true]
    refine lift_ok.mpr ⟨_, h1, bind_ok.mpr ⟨_, _, h2, bind_ok.mpr ⟨_, _, ?_, reply_shown _ _ hs⟩⟩⟩
    rw [ht]
    exact bind_ok.mpr ⟨_, _, h3, rfl⟩
  | putValue ho ha h1 h2 h3 =>
    rw [plain _ _ (.inl ho) ha]
    refine ⟨?_, by simp⟩
    unfold handleValue
    simp only [ho, reduceCtorEq, decide_false, Bool.false_and, Bool.false_eq_true, if_false]
    exact lift_ok.mpr ⟨_, h1, bind_ok.mpr ⟨_, _, commitTo_ok.mpr ⟨rfl, h2⟩, lift_ok.mpr ⟨_, h3, empty_ok.mpr ⟨rfl, rfl⟩⟩⟩⟩
  | putRaw ho ha hn h1 h2 h3 =>
    rw [plain _ _ (.inr ho) ha]
    refine ⟨?_, by simp⟩
    unfold handleValue
    simp only [ho, hn, decide_true, Bool.not_true, Bool.and_false, Bool.false_eq_true, if_false]
    exact lift_ok.mpr ⟨_, h1, bind_ok.mpr ⟨_, _, commitTo_ok.mpr ⟨rfl, h2⟩, lift_ok.mpr ⟨_, h3, empty_ok.mpr ⟨rfl, rfl⟩⟩⟩⟩
  | deleteValue ho ha hn h1 =>
    rw [plain _ _ (.inl ho) ha]
    refine ⟨?_, by simp⟩
    unfold handleValue
    simp only [ho, hn, reduceCtorEq, if_false, Bool.not_true, Bool.false_eq_true]
    exact bind_ok.mpr ⟨_, _, commitTo_ok.mpr ⟨rfl, h1⟩, empty_ok.mpr ⟨rfl, rfl⟩⟩
  | postLink ho ha hx ht h1 =>
    rw [handleTry_eq, run_bind, found _ _ ha, ho]
    refine ⟨?_, by simp⟩
    rcases hx with rfl | ⟨c, rfl⟩
    · exact bind_ok.mpr ⟨_, _, (linkTarget_ok hl).mpr ⟨rfl, ht⟩, bind_ok.mpr ⟨_, _, h1, empty_ok.mpr ⟨rfl, rfl⟩⟩⟩
    · exact bind_ok.mpr ⟨_, _, (linkTarget_ok hl).mpr ⟨rfl, ht⟩, bind_ok.mpr ⟨_, _, h1, empty_ok.mpr ⟨rfl, rfl⟩⟩⟩
  | putLink ho ha hm ht h1 =>
    rw [handleTry_eq, run_bind, found _ _ ha, ho]
    refine ⟨?_, by simp⟩
    unfold handleLinks
    simp only [hm, Bool.false_eq_true, if_false]
    exact bind_ok.mpr ⟨_, _, (linkTarget_ok hl).mpr ⟨rfl, ht⟩, bind_ok.mpr ⟨_, _, h1, empty_ok.mpr ⟨rfl, rfl⟩⟩⟩
  | deleteLink ho ha h1 =>
    rw [handleTry_eq, run_bind, found _ _ ha, ho]
    refine ⟨?_, by simp⟩
    exact bind_ok.mpr ⟨_, _, h1, empty_ok.mpr ⟨rfl, rfl⟩⟩

/-- C139: the server answers without an error exactly in the cases of `Served`, with the change and the answer given there.
(For requests that do not involve function imports.) -/
theorem C139_served (m : Method) (hc : ¬ CallsFunction S u.path.nav) (hl : NoFunctionLink S i) :
    (handle S m u i d = (d', r) ∧ r.status < 400) ↔ Served S u i d m d' r := by
  constructor
  · rintro ⟨h, hr⟩
    unfold handle at h
    rcases ht : handleTry S m u i d with ⟨d1, e | r1⟩ <;> rw [ht] at h <;> dsimp only at h
    · simp only [Prod.mk.injEq] at h
      obtain ⟨-, rfl⟩ := h
      cases e <;> simp [errorResp, statusOf] at hr
    · simp only [Prod.mk.injEq] at h
      obtain ⟨rfl, rfl⟩ := h
      exact try_forward S u i d d1 r1 m hc hl ht hr
  · intro h
    obtain ⟨h1, h2⟩ := try_backward S u i d d' r m hc hl h
    unfold handle
    rw [h1]
    exact ⟨rfl, h2⟩

end

end Verif.Srv
