import Mathlib.Data.List.Nodup
import Mathlib.Data.List.Induction

/-!
# The in-memory association index

Models `pyslet.odata2.memds.InMemoryAssociationIndex` (memds.py:267-377): two dictionaries of sets,
`index` (source key to target keys) and `reverseIndex` (target key to source keys).  A dictionary is
a function to `Option`, a set is a list without duplicates (in its iteration order).  A `KeyError`
inside a delete hook is swallowed by its `try`, leaving whatever had been done so far.
-/
namespace Verif.MemDs

/-- The dictionaries of memds.py:293-295. -/
structure Index (A B : Type) where
  fwd : A → Option (List B)
  rev : B → Option (List A)

variable {A B : Type} [DecidableEq A] [DecidableEq B]

/-- `d[k] = v`. -/
def put {X Y : Type} [DecidableEq X] (d : X → Option Y) (k : X) (v : Y) : X → Option Y :=
  fun x => if x = k then some v else d x

/-- `del d[k]`. -/
def del {X Y : Type} [DecidableEq X] (d : X → Option Y) (k : X) : X → Option Y :=
  fun x => if x = k then none else d x

/-- `s.add(x)`. -/
def sadd {X : Type} [DecidableEq X] (s : List X) (x : X) : List X := if x ∈ s then s else x :: s

/-- An index with no links (memds.py:293-295). -/
def Index.empty : Index A B := ⟨fun _ => none, fun _ => none⟩

/-- `self.index.setdefault(from_key, set()).add(to_key)` (memds.py:334). -/
def setAdd {X Y : Type} [DecidableEq X] [DecidableEq Y] (d : X → Option (List Y)) (k : X) (v : Y) :
    X → Option (List Y) := put d k (sadd ((d k).getD []) v)

/-- `add_link` (memds.py:331-335). -/
def Index.addLink (i : Index A B) (a : A) (b : B) : Index A B :=
  ⟨setAdd i.fwd a b, setAdd i.rev b a⟩

/-- `get_links_from` (memds.py:337-340). -/
def Index.linksFrom (i : Index A B) (a : A) : List B := (i.fwd a).getD []

/-- `get_links_to` (memds.py:342-345). -/
def Index.linksTo (i : Index A B) (b : B) : List A := (i.rev b).getD []

/-- `self.index.get(from_key, set()).discard(to_key)` (memds.py:350): an existing set loses the
element and stays in the dictionary even when it becomes empty. -/
def setDiscard {X Y : Type} [DecidableEq X] [DecidableEq Y] (d : X → Option (List Y)) (k : X)
    (v : Y) : X → Option (List Y) :=
  match d k with
  | none => d
  | some s => put d k (s.erase v)

/-- `remove_link` (memds.py:347-351). -/
def Index.removeLink (i : Index A B) (a : A) (b : B) : Index A B :=
  ⟨setDiscard i.fwd a b, setDiscard i.rev b a⟩

/-- One turn of the loop of memds.py:357-361: `none` is a KeyError (missing entry or element). -/
def dropOne {X Y : Type} [DecidableEq X] [DecidableEq Y] (d : X → Option (List Y)) (k : X) (v : Y) :
    Option (X → Option (List Y)) :=
  match d k with
  | none => none
  | some s =>
    if v ∈ s then
      (if (s.erase v).length = 0 then some (del d k) else some (put d k (s.erase v)))
    else none

/-- What a turn leaves behind when it raises: `from_keys.remove` fails before changing anything. -/
def dropLoop {X Y : Type} [DecidableEq X] [DecidableEq Y] (v : Y) :
    List X → (X → Option (List Y)) → (X → Option (List Y)) × Bool
  | [], d => (d, true)
  | k :: ks, d =>
    match dropOne d k v with
    | none => (d, false)
    | some d' => dropLoop v ks d'

/-- `delete_hook` (memds.py:353-364). -/
def Index.deleteHook (i : Index A B) (a : A) : Index A B :=
  match i.fwd a with
  | none => i
  | some bs =>
    match dropLoop a bs i.rev with
    | (rev, true) => ⟨del i.fwd a, rev⟩
    | (rev, false) => ⟨i.fwd, rev⟩

/-- `rdelete_hook` (memds.py:366-377). -/
def Index.rdeleteHook (i : Index A B) (b : B) : Index A B :=
  match i.rev b with
  | none => i
  | some as =>
    match dropLoop b as i.fwd with
    | (fwd, true) => ⟨fwd, del i.rev b⟩
    | (fwd, false) => ⟨fwd, i.rev⟩

/-! ## Histories and their meaning -/

/-- The calls that change an index. -/
inductive IxOp (A B : Type) where
  | add (a : A) (b : B)
  | remove (a : A) (b : B)
  | delFrom (a : A)
  | delTo (b : B)

/-- The call itself. -/
def Index.step (i : Index A B) : IxOp A B → Index A B
  | .add a b => i.addLink a b
  | .remove a b => i.removeLink a b
  | .delFrom a => i.deleteHook a
  | .delTo b => i.rdeleteHook b

/-- An index after a history of calls. -/
def Index.run (ops : List (IxOp A B)) : Index A B := ops.foldl Index.step Index.empty

/-- Specification: are `a` and `b` linked after the calls, read from the last one back? -/
def LinkedRev : List (IxOp A B) → A → B → Prop
  | [], _, _ => False
  | .add a' b' :: h, a, b => (a = a' ∧ b = b') ∨ LinkedRev h a b
  | .remove a' b' :: h, a, b => ¬ (a = a' ∧ b = b') ∧ LinkedRev h a b
  | .delFrom a' :: h, a, b => a ≠ a' ∧ LinkedRev h a b
  | .delTo b' :: h, a, b => b ≠ b' ∧ LinkedRev h a b

/-- Specification: are `a` and `b` linked after the calls? -/
def Linked (ops : List (IxOp A B)) (a : A) (b : B) : Prop := LinkedRev ops.reverse a b

/-! ## The two dictionaries mirror each other -/

/-- The invariant. -/
structure Index.Ok (i : Index A B) : Prop where
  mirror : ∀ a b, b ∈ i.linksFrom a ↔ a ∈ i.linksTo b
  nodupF : ∀ a, (i.linksFrom a).Nodup
  nodupR : ∀ b, (i.linksTo b).Nodup

omit [DecidableEq A] [DecidableEq B] in
theorem empty_ok : (Index.empty : Index A B).Ok :=
  ⟨fun _ _ => by simp [Index.empty, Index.linksFrom, Index.linksTo],
   fun _ => by simp [Index.empty, Index.linksFrom],
   fun _ => by simp [Index.empty, Index.linksTo]⟩

section Sets
variable {X Y : Type} [DecidableEq X] [DecidableEq Y]

theorem mem_setAdd (d : X → Option (List Y)) (k x : X) (v y : Y) :
    y ∈ (setAdd d k v x).getD [] ↔ (x = k ∧ y = v) ∨ y ∈ (d x).getD [] := by
  unfold setAdd put sadd
  by_cases hx : x = k
  · subst hx
    rw [if_pos rfl]
    split
    · rename_i hv
      simp only [Option.getD_some, true_and]
      constructor
      · intro h; exact Or.inr h
      · rintro (rfl | h)
        · exact hv
        · exact h
    · simp
  · rw [if_neg hx]; simp [hx]

theorem nodup_setAdd (d : X → Option (List Y)) (k x : X) (v : Y)
    (h : ((d x).getD []).Nodup) : ((setAdd d k v x).getD []).Nodup := by
  unfold setAdd put sadd
  by_cases hx : x = k
  · subst hx
    rw [if_pos rfl]
    split
    · simpa using h
    · rename_i hv
      simp only [Option.getD_some]
      exact List.nodup_cons.2 ⟨hv, h⟩
  · rw [if_neg hx]; exact h

theorem mem_setDiscard (d : X → Option (List Y)) (k x : X) (v y : Y)
    (h : ((d k).getD []).Nodup) :
    y ∈ (setDiscard d k v x).getD [] ↔ ¬ (x = k ∧ y = v) ∧ y ∈ (d x).getD [] := by
  unfold setDiscard
  cases hd : d k with
  | none =>
    dsimp only
    by_cases hx : x = k
    · subst hx; rw [hd]; simp
    · simp [hx]
  | some s =>
    rw [hd] at h
    dsimp only
    unfold put
    by_cases hx : x = k
    · subst hx
      rw [if_pos rfl, hd]
      simp only [Option.getD_some] at h ⊢
      rw [h.mem_erase_iff]; simp
    · rw [if_neg hx]; simp [hx]

theorem nodup_setDiscard (d : X → Option (List Y)) (k x : X) (v : Y)
    (h : ∀ x, ((d x).getD []).Nodup) : ((setDiscard d k v x).getD []).Nodup := by
  unfold setDiscard
  cases hd : d k with
  | none => exact h x
  | some s =>
    dsimp only
    unfold put
    by_cases hx : x = k
    · subst hx
      rw [if_pos rfl]
      have := h x
      rw [hd] at this
      exact this.erase v
    · rw [if_neg hx]; exact h x

theorem dropOne_spec (d : X → Option (List Y)) (k : X) (v : Y) (hm : v ∈ (d k).getD [])
    (hn : ∀ x, ((d x).getD []).Nodup) :
    ∃ d', dropOne d k v = some d' ∧
      (∀ x y, y ∈ (d' x).getD [] ↔ ¬ (x = k ∧ y = v) ∧ y ∈ (d x).getD []) ∧
      (∀ x, ((d' x).getD []).Nodup) := by
  unfold dropOne
  cases hd : d k with
  | none => rw [hd] at hm; simp at hm
  | some s =>
    rw [hd] at hm
    simp only [Option.getD_some] at hm
    have hs := hn k
    rw [hd] at hs
    simp only [Option.getD_some] at hs
    dsimp only
    rw [if_pos hm]
    by_cases h0 : (s.erase v).length = 0
    · rw [if_pos h0]
      refine ⟨_, rfl, ?_, ?_⟩
      · intro x y
        unfold del
        by_cases hx : x = k
        · subst hx
          rw [if_pos rfl, hd]
          simp only [Option.getD_none, List.not_mem_nil, Option.getD_some, true_and, false_iff]
          rintro ⟨h1, h2⟩
          have := (hs.mem_erase_iff (a := y) (b := v)).2 ⟨h1, h2⟩
          rw [List.length_eq_zero_iff] at h0
          rw [h0] at this
          simp at this
        · rw [if_neg hx]; simp [hx]
      · intro x
        unfold del
        by_cases hx : x = k
        · rw [if_pos hx]; simp
        · rw [if_neg hx]; exact hn x
    · rw [if_neg h0]
      refine ⟨_, rfl, ?_, ?_⟩
      · intro x y
        have := mem_setDiscard d k x v y (hn k)
        unfold setDiscard at this
        rw [hd] at this
        exact this
      · intro x
        have := nodup_setDiscard d k x v hn
        unfold setDiscard at this
        rw [hd] at this
        exact this

theorem dropLoop_spec (v : Y) : ∀ (ks : List X) (d : X → Option (List Y)), ks.Nodup →
    (∀ k ∈ ks, v ∈ (d k).getD []) → (∀ x, ((d x).getD []).Nodup) →
    (dropLoop v ks d).2 = true ∧
      (∀ x y, y ∈ ((dropLoop v ks d).1 x).getD [] ↔ ¬ (x ∈ ks ∧ y = v) ∧ y ∈ (d x).getD []) ∧
      (∀ x, (((dropLoop v ks d).1 x).getD []).Nodup)
  | [], d, _, _, hn => ⟨rfl, fun x y => by simp [dropLoop], hn⟩
  | k :: ks, d, hnd, hm, hn => by
    obtain ⟨d', h1, h2, h3⟩ := dropOne_spec d k v (hm k (by simp)) hn
    rw [List.nodup_cons] at hnd
    have ih := dropLoop_spec v ks d' hnd.2 (by
      intro k' hk'
      rw [h2]
      refine ⟨?_, hm k' (by simp [hk'])⟩
      rintro ⟨rfl, _⟩
      exact hnd.1 hk') h3
    unfold dropLoop
    rw [h1]
    dsimp only
    refine ⟨ih.1, ?_, ih.2.2⟩
    intro x y
    rw [ih.2.1, h2]
    simp only [List.mem_cons]
    constructor
    · rintro ⟨h4, h5, h6⟩
      exact ⟨by rintro ⟨h7 | h7, h8⟩; exacts [h5 ⟨h7, h8⟩, h4 ⟨h7, h8⟩], h6⟩
    · rintro ⟨h4, h6⟩
      exact ⟨fun h => h4 ⟨Or.inr h.1, h.2⟩, fun h => h4 ⟨Or.inl h.1, h.2⟩, h6⟩

end Sets

theorem addLink_mem (i : Index A B) (a a' : A) (b b' : B) :
    b ∈ (i.addLink a' b').linksFrom a ↔ (a = a' ∧ b = b') ∨ b ∈ i.linksFrom a :=
  mem_setAdd i.fwd a' a b' b

theorem addLink_ok (i : Index A B) (h : i.Ok) (a : A) (b : B) : (i.addLink a b).Ok := by
  refine ⟨fun x y => ?_, fun x => nodup_setAdd _ _ _ _ (h.nodupF x),
    fun y => nodup_setAdd _ _ _ _ (h.nodupR y)⟩
  rw [addLink_mem, h.mirror]
  have := mem_setAdd i.rev b y a x
  unfold Index.linksTo Index.addLink
  rw [this]
  tauto

theorem removeLink_mem (i : Index A B) (h : i.Ok) (a a' : A) (b b' : B) :
    b ∈ (i.removeLink a' b').linksFrom a ↔ ¬ (a = a' ∧ b = b') ∧ b ∈ i.linksFrom a :=
  mem_setDiscard i.fwd a' a b' b (h.nodupF a')

theorem removeLink_ok (i : Index A B) (h : i.Ok) (a : A) (b : B) : (i.removeLink a b).Ok := by
  refine ⟨fun x y => ?_, fun x => nodup_setDiscard _ _ _ _ h.nodupF,
    fun y => nodup_setDiscard _ _ _ _ h.nodupR⟩
  rw [removeLink_mem i h, h.mirror]
  have := mem_setDiscard i.rev b y a x (h.nodupR b)
  unfold Index.linksTo Index.removeLink
  rw [this]
  tauto

theorem deleteHook_spec (i : Index A B) (h : i.Ok) (a' : A) :
    (∀ a b, b ∈ (i.deleteHook a').linksFrom a ↔ a ≠ a' ∧ b ∈ i.linksFrom a) ∧
      (i.deleteHook a').Ok := by
  unfold Index.deleteHook
  cases hf : i.fwd a' with
  | none =>
    dsimp only
    refine ⟨fun a b => ?_, h⟩
    by_cases ha : a = a'
    · subst ha; simp [Index.linksFrom, hf]
    · simp [ha]
  | some bs =>
    dsimp only
    have hbs : i.linksFrom a' = bs := by simp [Index.linksFrom, hf]
    have hl := dropLoop_spec a' bs i.rev (by rw [← hbs]; exact h.nodupF a')
      (fun b hb => by rw [← hbs] at hb; exact (h.mirror a' b).1 hb) h.nodupR
    obtain ⟨hok, hmem, hnd⟩ := hl
    have hpair : dropLoop a' bs i.rev = ((dropLoop a' bs i.rev).1, true) := by rw [← hok]
    rw [hpair]
    dsimp only
    have hF : ∀ a b, b ∈ ((del i.fwd a') a).getD [] ↔ a ≠ a' ∧ b ∈ i.linksFrom a := by
      intro a b
      unfold del
      by_cases ha : a = a'
      · rw [if_pos ha]; simp [ha]
      · rw [if_neg ha]; simp [ha, Index.linksFrom]
    refine ⟨hF, ?_, ?_, hnd⟩
    · intro a b
      have h1 := hF a b
      have h2 := hmem b a
      unfold Index.linksFrom Index.linksTo at *
      dsimp only
      rw [h1, h2]
      have hm := h.mirror a b
      unfold Index.linksFrom Index.linksTo at hm
      rw [hm]
      constructor
      · rintro ⟨h3, h4⟩; exact ⟨fun h5 => h3 h5.2, h4⟩
      · rintro ⟨h3, h4⟩
        refine ⟨?_, h4⟩
        rintro rfl
        apply h3
        exact ⟨by rw [← hbs]; exact hm.2 h4, rfl⟩
    · intro a
      show (((del i.fwd a') a).getD []).Nodup
      unfold del
      by_cases ha : a = a'
      · rw [if_pos ha]; simp
      · rw [if_neg ha]; exact h.nodupF a

/-- The same index seen from the other side. -/
def Index.swap (i : Index A B) : Index B A := ⟨i.rev, i.fwd⟩

omit [DecidableEq A] [DecidableEq B] in
theorem swap_ok {i : Index A B} (h : i.Ok) : i.swap.Ok :=
  ⟨fun a b => (h.mirror b a).symm, h.nodupR, h.nodupF⟩

theorem rdeleteHook_swap (i : Index A B) (b : B) : i.rdeleteHook b = (i.swap.deleteHook b).swap := by
  unfold Index.rdeleteHook Index.deleteHook Index.swap
  dsimp only
  cases i.rev b with
  | none => rfl
  | some as =>
    dsimp only
    generalize dropLoop b as i.fwd = q
    obtain ⟨r, ok⟩ := q
    cases ok <;> rfl

theorem rdeleteHook_spec (i : Index A B) (h : i.Ok) (b' : B) :
    (∀ a b, b ∈ (i.rdeleteHook b').linksFrom a ↔ b ≠ b' ∧ b ∈ i.linksFrom a) ∧
      (i.rdeleteHook b').Ok := by
  have hs := deleteHook_spec i.swap (swap_ok h) b'
  rw [rdeleteHook_swap]
  have hok := swap_ok hs.2
  refine ⟨fun a b => ?_, hok⟩
  rw [hok.mirror]
  have := hs.1 b a
  rw [show (i.swap.deleteHook b').swap.linksTo b = (i.swap.deleteHook b').linksFrom b from rfl, this,
    h.mirror]
  rfl

theorem step_spec (i : Index A B) (h : i.Ok) (op : IxOp A B) :
    (i.step op).Ok ∧ ∀ a b, b ∈ (i.step op).linksFrom a ↔
      match op with
      | .add a' b' => (a = a' ∧ b = b') ∨ b ∈ i.linksFrom a
      | .remove a' b' => ¬ (a = a' ∧ b = b') ∧ b ∈ i.linksFrom a
      | .delFrom a' => a ≠ a' ∧ b ∈ i.linksFrom a
      | .delTo b' => b ≠ b' ∧ b ∈ i.linksFrom a := by
  cases op with
  | add a' b' => exact ⟨addLink_ok i h _ _, fun a b => addLink_mem i a a' b b'⟩
  | remove a' b' => exact ⟨removeLink_ok i h _ _, fun a b => removeLink_mem i h a a' b b'⟩
  | delFrom a' => exact ⟨(deleteHook_spec i h a').2, (deleteHook_spec i h a').1⟩
  | delTo b' => exact ⟨(rdeleteHook_spec i h b').2, (rdeleteHook_spec i h b').1⟩

theorem run_spec (h : List (IxOp A B)) :
    (Index.run h).Ok ∧ ∀ a b, b ∈ (Index.run h).linksFrom a ↔ LinkedRev h.reverse a b := by
  induction h using List.reverseRecOn with
  | nil => exact ⟨empty_ok, fun a b => by simp [Index.run, Index.empty, Index.linksFrom, LinkedRev]⟩
  | append_singleton h op ih =>
    have hrun : Index.run (h ++ [op]) = (Index.run h).step op := by simp [Index.run]
    rw [hrun]
    have hs := step_spec (Index.run h) ih.1 op
    refine ⟨hs.1, fun a b => ?_⟩
    rw [hs.2, List.reverse_append]
    cases op <;> simp [LinkedRev, ih.2]

/-- C71: after any history of links added, links removed and entities deleted at either end, the
links found from an entity are exactly the ones the history leaves. -/
theorem C71_links_from (h : List (IxOp A B)) (a : A) (b : B) :
    b ∈ (Index.run h).linksFrom a ↔ Linked h a b := (run_spec h).2 a b

/-- C71: and the links found in the other direction are the same ones. -/
theorem C71_links_to (h : List (IxOp A B)) (a : A) (b : B) :
    a ∈ (Index.run h).linksTo b ↔ Linked h a b := by
  rw [← (run_spec h).1.mirror]; exact (run_spec h).2 a b

/-- C71: no link is reported twice. -/
theorem C71_no_duplicates (h : List (IxOp A B)) :
    (∀ a, ((Index.run h).linksFrom a).Nodup) ∧ (∀ b, ((Index.run h).linksTo b).Nodup) :=
  ⟨(run_spec h).1.nodupF, (run_spec h).1.nodupR⟩

/-- C71: deleting an entity never stops half way: the error the hook hides cannot occur, and
afterwards nothing is linked to the entity, in either dictionary. -/
theorem C71_delete_complete (h : List (IxOp A B)) (a : A) :
    (Index.run (h ++ [.delFrom a])).fwd a = none ∧
      ∀ b, a ∉ (Index.run (h ++ [.delFrom a])).linksTo b := by
  constructor
  · have hrun : Index.run (h ++ [.delFrom a]) = (Index.run h).deleteHook a := by
      simp [Index.run, Index.step]
    rw [hrun]
    have hok := (run_spec h).1
    unfold Index.deleteHook
    cases hf : (Index.run h).fwd a with
    | none => exact hf
    | some bs =>
      dsimp only
      have hbs : (Index.run h).linksFrom a = bs := by simp [Index.linksFrom, hf]
      have hl := dropLoop_spec a bs (Index.run h).rev (by rw [← hbs]; exact hok.nodupF a)
        (fun b hb => by rw [← hbs] at hb; exact (hok.mirror a b).1 hb) hok.nodupR
      have hpair : dropLoop a bs (Index.run h).rev = ((dropLoop a bs (Index.run h).rev).1, true) := by
        rw [← hl.1]
      rw [hpair]
      simp [del]
  · intro b
    rw [C71_links_to]
    simp [Linked, LinkedRev]

theorem C71_rdelete_complete (h : List (IxOp A B)) (b : B) :
    (Index.run (h ++ [.delTo b])).rev b = none ∧
      ∀ a, b ∉ (Index.run (h ++ [.delTo b])).linksFrom a := by
  constructor
  · have hrun : Index.run (h ++ [.delTo b]) = (Index.run h).rdeleteHook b := by
      simp [Index.run, Index.step]
    rw [hrun]
    have hok := (run_spec h).1
    unfold Index.rdeleteHook
    cases hf : (Index.run h).rev b with
    | none => exact hf
    | some as =>
      dsimp only
      have has : (Index.run h).linksTo b = as := by simp [Index.linksTo, hf]
      have hl := dropLoop_spec b as (Index.run h).fwd (by rw [← has]; exact hok.nodupR b)
        (fun a ha => by rw [← has] at ha; exact (hok.mirror a b).2 ha) hok.nodupF
      have hpair : dropLoop b as (Index.run h).fwd = ((dropLoop b as (Index.run h).fwd).1, true) := by
        rw [← hl.1]
      rw [hpair]
      simp [del]
  · intro a
    rw [C71_links_from]
    simp [Linked, LinkedRev]

example : (Index.run [.add 1 10, .add 1 11, .add 2 10, .remove 1 11, .delFrom 2] : Index Nat Nat).linksTo 10
    = [1] := by decide +kernel
example : Linked [.add 1 10, .add 2 10, .delFrom 2] (1 : Nat) (10 : Nat) := by simp [Linked, LinkedRev]

end Verif.MemDs
