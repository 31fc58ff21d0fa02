import Mathlib.Data.List.Induction

/-!
# The values of entities in the in-memory store (C74)

Models `InMemoryEntityStore.add_entity`, `read_entity`, `update_entity` and the conversions of complex
values (memds.py:71-150, 165-217).  A stored row is a tuple with one item for each declared property;
the item of a complex property is a tuple of its own.  Simple values are opaque (`V`), null is
`none`.
-/
namespace Verif.MemDs.Row

/-- The declaration of a property: its default value, or the properties of its complex type
(`p_def`, csdl.py). -/
inductive PDef (V : Type) where
  | simple (dflt : Option V)
  | complex (fields : List (PDef V))

/-- The value of a property of an entity: `SimpleValue.value`, or the values of a `Complex`. -/
inductive PVal (V : Type) where
  | simple (v : Option V)
  | complex (fields : List (PVal V))

/-- An item of a stored row. -/
inductive Tup (V : Type) where
  | leaf (v : Option V)
  | node (items : List (Tup V))

variable {V : Type}

mutual
/-- The item stored for a value: `p.value` or `get_tuple_from_complex` (memds.py:86-89, 197-205). -/
def toTup : PVal V → Tup V
  | .simple v => .leaf v
  | .complex fs => .node (toTups fs)
/-- The loop of memds.py:199-204. -/
def toTups : List (PVal V) → List (Tup V)
  | [] => []
  | f :: fs => toTup f :: toTups fs
end

mutual
/-- The default of a property: `set_default_value` or `get_tuple_from_complex_default`
(memds.py:78-83, 207-217). -/
def dfltTup : PDef V → Tup V
  | .simple d => .leaf d
  | .complex fs => .node (dfltTups fs)
/-- The loop of memds.py:209-216. -/
def dfltTups : List (PDef V) → List (Tup V)
  | [] => []
  | f :: fs => dfltTup f :: dfltTups fs
end

mutual
/-- The value read back from an item: `set_from_value` or `set_complex_from_tuple`
(memds.py:132-135, 144-150).  Simplified: `set_from_value` of a value of the declared type stores
that value. -/
def ofTup : Tup V → PVal V
  | .leaf v => .simple v
  | .node ts => .complex (ofTups ts)
/-- The loop of memds.py:145-150. -/
def ofTups : List (Tup V) → List (PVal V)
  | [] => []
  | t :: ts => ofTup t :: ofTups ts
end

mutual
/-- A property that is not selected is null when read: `set_null` or `set_from_value(None)`
(memds.py:137-140). -/
def nullVal : Tup V → PVal V
  | .leaf _ => .simple none
  | .node ts => .complex (nullVals ts)
/-- All the fields of a complex value. -/
def nullVals : List (Tup V) → List (PVal V)
  | [] => []
  | t :: ts => nullVal t :: nullVals ts
end

/-- A declared property: is it part of the key, and its declaration. -/
structure Prop' (V : Type) where
  isKey : Bool
  decl : PDef V

/-- A property of an entity passed by the caller: `e.is_selected(pname)` and `e[pname]`. -/
structure Field (V : Type) where
  selected : Bool
  val : PVal V

/-- The item `add_entity` stores (memds.py:74-91). -/
def addItem (p : Prop' V) (f : Field V) : Tup V :=
  if f.selected = false ∧ p.isKey = false then dfltTup p.decl else toTup f.val

/-- The item `update_entity` stores over an old one (memds.py:171-190). -/
def updItem (merge : Bool) (p : Prop' V) (f : Field V) (old : Tup V) : Tup V :=
  if p.isKey then old
  else if f.selected then toTup f.val
  else if merge = false then dfltTup p.decl
  else old

/-- The loop of memds.py:74-91. -/
def addRow : List (Prop' V) → List (Field V) → List (Tup V)
  | p :: ps, f :: fs => addItem p f :: addRow ps fs
  | _, _ => []

/-- The loop of memds.py:170-190; the index `i` follows the property. -/
def updRow (merge : Bool) : List (Prop' V) → List (Field V) → List (Tup V) → List (Tup V)
  | p :: ps, f :: fs, t :: ts => updItem merge p f t :: updRow merge ps fs ts
  | _, _, ts => ts

variable {K : Type} [DecidableEq K]

/-- The calls on a store. -/
inductive Op (K V : Type) where
  | insert (key : K) (fs : List (Field V))
  | update (key : K) (merge : Bool) (fs : List (Field V))
  | delete (key : K)

/-- `self.data` of a store, one entity set (memds.py:40). -/
abbrev Store (K V : Type) := K → Option (List (Tup V))

/-- `add_entity` (memds.py:71-97; a duplicate key is a ConstraintError), `update_entity`
(memds.py:165-191; a missing key is a KeyError), `delete_entity` (memds.py:255): the store after the
call. -/
def step (ps : List (Prop' V)) (d : Store K V) : Op K V → Store K V
  | .insert k fs =>
    match d k with
    | some _ => d
    | none => fun x => if x = k then some (addRow ps fs) else d x
  | .update k m fs =>
    match d k with
    | none => d
    | some ts => fun x => if x = k then some (updRow m ps fs ts) else d x
  | .delete k => fun x => if x = k then none else d x

/-- A store after a history of calls. -/
def run (ps : List (Prop' V)) (ops : List (Op K V)) : Store K V :=
  ops.foldl (step ps) (fun _ => none)

/-- `read_entity` (memds.py:118-142): `sel i` says whether property `i` is selected (all are when no
selection is made). -/
def readRow (sel : Nat → Bool) (ps : List (Prop' V)) (ts : List (Tup V)) : List (PVal V) :=
  (ps.zip ts).zipIdx.map fun (pt, i) =>
    if sel i || pt.1.isKey then ofTup pt.2 else nullVal pt.2

/-! ## Specification: one property at a time -/

mutual
/-- The default of a property as a value. -/
def dfltVal : PDef V → PVal V
  | .simple d => .simple d
  | .complex fs => .complex (dfltVals fs)
/-- The defaults of the fields of a complex type. -/
def dfltVals : List (PDef V) → List (PVal V)
  | [] => []
  | f :: fs => dfltVal f :: dfltVals fs
end

/-- The value of property `i` (declared as `p`) of the entity with key `k` after the calls, read from
the last one back; `none` when there is no such entity. -/
def propAt (p : Prop' V) (i : Nat) (k : K) : List (Op K V) → Option (PVal V)
  | [] => none
  | .insert k' fs :: h =>
    match propAt p i k h, fs[i]? with
    | some v, _ => some v
    | none, some f =>
      if k = k' then some (if f.selected || p.isKey then f.val else dfltVal p.decl) else none
    | none, none => none
  | .update k' merge fs :: h =>
    match propAt p i k h, fs[i]? with
    | some v, some f =>
      if k = k' ∧ p.isKey = false then
        some (if f.selected then f.val else if merge then v else dfltVal p.decl)
      else some v
    | r, _ => r
  | .delete k' :: h => if k = k' then none else propAt p i k h

/-! ## Proofs -/

mutual
theorem ofTup_toTup : ∀ v : PVal V, ofTup (toTup v) = v
  | .simple v => rfl
  | .complex fs => by simp [toTup, ofTup, ofTups_toTups fs]
theorem ofTups_toTups : ∀ vs : List (PVal V), ofTups (toTups vs) = vs
  | [] => rfl
  | v :: vs => by simp [toTups, ofTups, ofTup_toTup v, ofTups_toTups vs]
end

mutual
theorem ofTup_dflt : ∀ d : PDef V, ofTup (dfltTup d) = dfltVal d
  | .simple v => rfl
  | .complex fs => by simp [dfltTup, ofTup, dfltVal, ofTups_dflt fs]
theorem ofTups_dflt : ∀ ds : List (PDef V), ofTups (dfltTups ds) = dfltVals ds
  | [] => rfl
  | d :: ds => by simp [dfltTups, ofTups, dfltVals, ofTup_dflt d, ofTups_dflt ds]
end

theorem addRow_get : ∀ (ps : List (Prop' V)) (fs : List (Field V)) (i : Nat),
    (addRow ps fs)[i]? = match ps[i]?, fs[i]? with
      | some p, some f => some (addItem p f)
      | _, _ => none
  | [], fs, i => by simp [addRow]
  | p :: ps, [], i => by cases h : (p :: ps)[i]? <;> simp [addRow]
  | p :: ps, f :: fs, 0 => by simp [addRow]
  | p :: ps, f :: fs, i + 1 => by simp [addRow, addRow_get ps fs i]

theorem updRow_length (m : Bool) : ∀ (ps : List (Prop' V)) (fs : List (Field V)) (ts : List (Tup V)),
    (updRow m ps fs ts).length = ts.length
  | [], fs, ts => by simp [updRow]
  | p :: ps, [], ts => by simp [updRow]
  | p :: ps, f :: fs, [] => by simp [updRow]
  | p :: ps, f :: fs, t :: ts => by simp [updRow, updRow_length m ps fs ts]

theorem updRow_get (m : Bool) : ∀ (ps : List (Prop' V)) (fs : List (Field V)) (ts : List (Tup V))
    (i : Nat), (updRow m ps fs ts)[i]? = match ps[i]?, fs[i]?, ts[i]? with
      | some p, some f, some t => some (updItem m p f t)
      | _, _, r => r
  | [], fs, ts, i => by simp [updRow]
  | p :: ps, [], ts, i => by
    simp [updRow]
  | p :: ps, f :: fs, [], i => by
    simp [updRow]
  | p :: ps, f :: fs, t :: ts, 0 => by simp [updRow]
  | p :: ps, f :: fs, t :: ts, i + 1 => by simp [updRow, updRow_get m ps fs ts i]

/-- Every call passes an entity of the declared type: one field for each property. -/
def Typed (ps : List (Prop' V)) : Op K V → Prop
  | .insert _ fs => fs.length = ps.length
  | .update _ _ fs => fs.length = ps.length
  | .delete _ => True

/-- The item of a property in a store. -/
def item (d : Store K V) (k : K) (i : Nat) : Option (PVal V) :=
  (d k).bind fun ts => ts[i]?.map ofTup

theorem addItem_val (p : Prop' V) (f : Field V) :
    ofTup (addItem p f) = if f.selected || p.isKey then f.val else dfltVal p.decl := by
  unfold addItem
  cases f.selected <;> cases p.isKey <;> simp [ofTup_toTup, ofTup_dflt]

theorem updItem_val (m : Bool) (p : Prop' V) (f : Field V) (t : Tup V) :
    ofTup (updItem m p f t) = if p.isKey = false then
      (if f.selected then f.val else if m then ofTup t else dfltVal p.decl) else ofTup t := by
  unfold updItem
  cases p.isKey <;> cases f.selected <;> cases m <;> simp [ofTup_toTup, ofTup_dflt]

theorem addRow_length : ∀ (ps : List (Prop' V)) (fs : List (Field V)), fs.length = ps.length →
    (addRow ps fs).length = ps.length
  | [], fs, _ => by simp [addRow]
  | p :: ps, [], h => by simp at h
  | p :: ps, f :: fs, h => by simp [addRow, addRow_length ps fs (by simpa using h)]

theorem step_insert (ps : List (Prop' V)) (d : Store K V) (k' : K) (fs : List (Field V)) (k : K) :
    step ps d (.insert k' fs) k =
      if k = k' ∧ d k = none then some (addRow ps fs) else d k := by
  by_cases hk : k = k'
  · subst hk
    cases h : d k <;> simp [step, h]
  · cases h : d k' <;> simp [step, h, hk]

theorem step_update (ps : List (Prop' V)) (d : Store K V) (k' : K) (m : Bool) (fs : List (Field V))
    (k : K) : step ps d (.update k' m fs) k =
      if k = k' then (d k).map (updRow m ps fs) else d k := by
  by_cases hk : k = k'
  · subst hk
    cases h : d k <;> simp [step, h]
  · cases h : d k' <;> simp [step, h, hk]

theorem run_item (ps : List (Prop' V)) (ops : List (Op K V)) (ht : ∀ op ∈ ops, Typed ps op)
    (k : K) :
    (∀ ts, run ps ops k = some ts → ts.length = ps.length) ∧
    ∀ i p, ps[i]? = some p → item (run ps ops) k i = propAt p i k ops.reverse := by
  induction ops using List.reverseRecOn with
  | nil => exact ⟨fun ts h => by simp [run] at h, fun i p _ => by simp [run, item, propAt]⟩
  | append_singleton ops op ih =>
    obtain ⟨ihl, ihi⟩ := ih (fun o ho => ht o (by simp [ho]))
    have hty := ht op (by simp)
    have hrun : run ps (ops ++ [op]) = step ps (run ps ops) op := by simp [run]
    rw [hrun]
    cases op with
    | insert k' fs =>
      have hlen := addRow_length ps fs hty
      constructor
      · intro ts h
        rw [step_insert] at h
        split at h
        · injection h with h; rw [← h, hlen]
        · exact ihl ts h
      · intro i p hp
        rw [List.reverse_append]
        simp only [List.reverse_cons, List.reverse_nil, List.nil_append, List.singleton_append]
        unfold propAt
        have hi : i < fs.length := by
          rw [show fs.length = ps.length from hty]
          exact (List.getElem?_eq_some_iff.1 hp).1
        have hf : fs[i]? = some fs[i] := List.getElem?_eq_getElem hi
        have hii := ihi i p hp
        rw [hf]
        unfold item
        rw [step_insert]
        cases hd : run ps ops k with
        | none =>
          have hpn : propAt p i k ops.reverse = none := by rw [← hii]; simp [item, hd]
          rw [hpn]
          dsimp only
          by_cases hkk : k = k'
          · rw [if_pos ⟨hkk, rfl⟩, if_pos hkk]
            simp only [Option.bind]
            rw [addRow_get, hp, hf]
            simp [addItem_val]
          · rw [if_neg (by rintro ⟨h, _⟩; exact hkk h), if_neg hkk]; rfl
        | some ts =>
          have hit : i < ts.length := by
            rw [ihl ts hd]; exact (List.getElem?_eq_some_iff.1 hp).1
          have htv : ts[i]? = some ts[i] := List.getElem?_eq_getElem hit
          have hps : propAt p i k ops.reverse = some (ofTup ts[i]) := by
            rw [← hii]; simp [item, hd, htv]
          rw [hps]
          simp [htv]
    | update k' m fs =>
      constructor
      · intro ts h
        rw [step_update] at h
        split at h
        · cases hd : run ps ops k with
          | none => rw [hd] at h; cases h
          | some ts' =>
            rw [hd] at h
            simp only [Option.map] at h
            injection h with h; rw [← h, updRow_length]; exact ihl ts' hd
        · exact ihl ts h
      · intro i p hp
        rw [List.reverse_append]
        simp only [List.reverse_cons, List.reverse_nil, List.nil_append, List.singleton_append]
        unfold propAt
        have hi : i < fs.length := by
          rw [show fs.length = ps.length from hty]
          exact (List.getElem?_eq_some_iff.1 hp).1
        have hf : fs[i]? = some fs[i] := List.getElem?_eq_getElem hi
        rw [hf]
        have hii := ihi i p hp
        unfold item
        rw [step_update]
        cases hd : run ps ops k with
        | none =>
          have hpn : propAt p i k ops.reverse = none := by rw [← hii]; simp [item, hd]
          rw [hpn]
          by_cases hk : k = k' <;> simp [hk]
        | some ts =>
          have hit : i < ts.length := by
            rw [ihl ts hd]; exact (List.getElem?_eq_some_iff.1 hp).1
          have htv : ts[i]? = some ts[i] := List.getElem?_eq_getElem hit
          have hps : propAt p i k ops.reverse = some (ofTup ts[i]) := by
            rw [← hii]; simp [item, hd, htv]
          rw [hps]
          dsimp only
          by_cases hk : k = k'
          · rw [if_pos hk]
            simp only [Option.bind, Option.map]
            rw [updRow_get, hp, hf, htv]
            simp only [updItem_val]
            by_cases hkey : p.isKey = false <;> simp [hkey, hk]
          · rw [if_neg hk, if_neg (by rintro ⟨h, _⟩; exact hk h)]
            simp [htv]
    | delete k' =>
      constructor
      · intro ts h
        unfold step at h
        dsimp only at h
        split at h
        · cases h
        · exact ihl ts h
      · intro i p hp
        rw [List.reverse_append]
        simp only [List.reverse_cons, List.reverse_nil, List.nil_append, List.singleton_append]
        unfold propAt item step
        dsimp only
        by_cases hk : k = k'
        · rw [if_pos hk, if_pos hk]; rfl
        · rw [if_neg hk, if_neg hk]; exact ihi i p hp

/-- C74: after any history of inserts, updates (merging or replacing) and deletes, duplicates and
missing keys included, reading a property gives exactly what the history left there: the value of
the last call that set it, its default when a replacing update or the insert left it out, and the
value it was inserted with if it is part of the key. -/
theorem C74_read_back (ps : List (Prop' V)) (ops : List (Op K V)) (ht : ∀ op ∈ ops, Typed ps op)
    (k : K) (ts : List (Tup V)) (hk : run ps ops k = some ts) (i : Nat) (p : Prop' V)
    (hp : ps[i]? = some p) (sel : Nat → Bool) (hs : (sel i || p.isKey) = true) :
    (readRow sel ps ts)[i]? = propAt p i k ops.reverse := by
  have h := run_item ps ops ht k
  rw [← h.2 i p hp]
  have hit : i < ts.length := by
    rw [h.1 ts hk]; exact (List.getElem?_eq_some_iff.1 hp).1
  have hpl := (List.getElem?_eq_some_iff.1 hp).1
  have hpg := (List.getElem?_eq_some_iff.1 hp).2
  unfold readRow item
  rw [hk]
  simp only [Option.bind]
  rw [List.getElem?_eq_getElem hit]
  have hz : (ps.zip ts)[i]? = some (p, ts[i]) :=
    List.getElem?_zip_eq_some.2 ⟨hp, List.getElem?_eq_getElem hit⟩
  rw [List.getElem?_map, List.getElem?_zipIdx, hz]
  simp only [Option.map, Nat.zero_add]
  rw [if_pos hs]

/-- C74: an entity is found exactly when the history left it there (the schema has at least one
property). -/
theorem C74_exists (ps : List (Prop' V)) (ops : List (Op K V)) (ht : ∀ op ∈ ops, Typed ps op)
    (k : K) (p : Prop' V) (hp : ps[0]? = some p) :
    (run ps ops k).isSome = (propAt p 0 k ops.reverse).isSome := by
  have h := run_item ps ops ht k
  rw [← h.2 0 p hp]
  unfold item
  cases hd : run ps ops k with
  | none => rfl
  | some ts =>
    have hit : 0 < ts.length := by
      rw [h.1 ts hd]; exact (List.getElem?_eq_some_iff.1 hp).1
    simp [List.getElem?_eq_getElem hit]

example : propAt (K := Nat) ⟨false, .simple (some 5)⟩ 1 7
    [.update 7 true [⟨true, .simple (some 7)⟩, ⟨false, .simple (some 3)⟩],
     .insert 7 [⟨true, .simple (some 7)⟩, ⟨true, .simple (some 9)⟩]] = some (.simple (some 9)) := by
  simp [propAt]

/-- A replacing update through a complex property, read back through the model. -/
example : (run (K := Nat) [⟨true, .simple none⟩, ⟨false, .complex [.simple (some 5)]⟩]
    [.insert 7 [⟨true, .simple (some 7)⟩, ⟨true, .complex [.simple (some 9)]⟩],
     .update 7 false [⟨true, .simple (some 8)⟩, ⟨false, .complex [.simple none]⟩]] 7) =
    some [.leaf (some 7), .node [.leaf (some 5)]] := by
  simp [run, step, addRow, updRow, addItem, updItem, toTup, dfltTup, dfltTups]

end Verif.MemDs.Row
