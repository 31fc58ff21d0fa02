import Verif.Qti.Val
/-
QTI mappings and lookup tables (variables.py:1193-1743), shapes (core.py:232-267,
html401.py:425-478) .
-/
namespace Verif.Qti

/-- html401.py:638-735 `Length`: a number of pixels or a percentage. -/
inductive Len
  | pixel (v : Int)
  | percent (v : Int)
  deriving DecidableEq, Repr

/-- html401.py:711-723 `Length.resolve_value`. -/
def Len.resolve (l : Len) (dim : Option Int) : R Int :=
  match l with
  | .pixel v => .ok v
  | .percent v =>
    match dim with
    | none => .error .value
    | some d => .ok ((v * d + 50).fdiv 100)

/-- core.py:135-156 `Shape` with its coordinates; `poly` is not modelled. -/
inductive Shape
  | circle (c : List Len)
  | default
  | ellipse (c : List Len)
  | rect (c : List Len)
  deriving DecidableEq, Repr

/-- html401.py:467-474: the dimension that a relative radius refers to. -/
def radiusDim : Option Int → Option Int → Option Int
  | none, none => none
  | none, some h => some h
  | some w, none => some w
  | some w, some h => some (if w < h then w else h)

/-- core.py:232-267 `test_point` and `test_ellipse`, html401.py:425-450 `test_rect`, 452-478
`test_circle`. -/
def Shape.test (s : Shape) (x y : Int) (w h : Option Int) : R Bool :=
  match s with
  | .circle c =>
    match c with
    | cx :: cy :: cr :: _ => do
      let vx ← cx.resolve w
      let vy ← cy.resolve h
      let r ← cr.resolve (radiusDim w h)
      pure (decide ((x - vx) * (x - vx) + (y - vy) * (y - vy) ≤ r * r))
    | _ => .error .value
  | .default =>
    .ok (decide (x ≥ 0) && decide (y ≥ 0) &&
      (match w with | none => true | some w => decide (x ≤ w)) &&
      (match h with | none => true | some h => decide (y ≤ h)))
  | .ellipse c =>
    match c with
    | cx :: cy :: crx :: cry :: _ => do
      let vx ← cx.resolve w
      let vy ← cy.resolve h
      let rx ← crx.resolve w
      let ry ← cry.resolve h
      pure (decide ((x - vx) * (x - vx) * ry * ry + (y - vy) * (y - vy) * rx * rx
        ≤ rx * rx * ry * ry))
    | _ => .error .value
  | .rect c =>
    match c with
    | a :: b :: c :: d :: _ => do
      let x0 ← a.resolve w
      let y0 ← b.resolve h
      let x1 ← c.resolve w
      let y1 ← d.resolve h
      let xs := if x0 > x1 then (x1, x0) else (x0, x1)
      let ys := if y0 > y1 then (y1, y0) else (y0, y1)
      if x < xs.1 ∨ y < ys.1 then pure false
      else if x ≥ xs.2 ∨ y ≥ ys.2 then pure false
      else pure true
    | _ => .error .value

/-- variables.py:1193-1249 `Mapping` after `content_changed`: the entries with their keys
converted to the base type, in document order. -/
structure Mapping where
  lower : Option Rat
  upper : Option Rat
  dflt : Rat
  entries : List (Datum × Rat)
  deriving DecidableEq, Repr

/-- variables.py:1246-1249: the dictionary built from the entries. -/
def Mapping.map (m : Mapping) : List (Datum × Rat) :=
  m.entries.foldl (fun acc e => dset e.1 e.2 acc) []

/-- variables.py:1287-1290, 1476-1479: the bounds. -/
def clip (lo hi : Option Rat) (r : Rat) : Rat :=
  match lo with
  | some l =>
    if r < l then l
    else match hi with
      | some h => if r > h then h else r
      | none => r
  | none =>
    match hi with
    | some h => if r > h then h else r
    | none => r

/-- variables.py:1256-1266, 1437-1447: the source values. -/
def srcValues (v : Val) : R (List Datum) :=
  match v with
  | .single _ (some d) => .ok [d]
  | .ordered _ (some l) => .ok l
  | .multiple _ (some m) => .ok (m.map (·.1))
  | .record (some _) => .error .value
  | _ => .ok []

/-- The loop of variables.py:1273-1280, `been` being the keys of `been_there`. -/
def mapLoop (m : Mapping) : List Datum → List Datum → Rat → Rat
  | [], _, r => r
  | d :: l, been, r =>
    if d ∈ been then mapLoop m l been r
    else mapLoop m l (d :: been) (r + (dget d m.map).getD m.dflt)

/-- variables.py:1251-1292 `Mapping.map_value`; the result is the number in the FloatValue. -/
def Mapping.mapValue (m : Mapping) (v : Val) : R Rat := do
  let src ← srcValues v
  let r := mapLoop m src [] 0
  if !v.isSet || v.bt.isNone then pure 0
  else pure (clip m.lower m.upper r)

/-- variables.py:1383-1418 `AreaMapping` with its entries (1484-1504). -/
structure AreaMapping where
  lower : Option Rat
  upper : Option Rat
  dflt : Rat
  entries : List (Shape × Rat)
  deriving DecidableEq, Repr

/-- The inner loop of variables.py:1458-1466: the position of the first area that holds the
point. -/
def firstArea (x y : Int) (w h : Option Int) : Nat → List (Shape × Rat) → R (Option Nat)
  | _, [] => .ok none
  | i, (s, _) :: l => do
    if ← s.test x y w h then pure (some i) else firstArea x y w h (i + 1) l

/-- The loop of variables.py:1456-1469; `been` are the areas already counted. -/
def areaLoop (m : AreaMapping) (w h : Option Int) : List Datum → List Nat → Rat → R Rat
  | [], _, r => .ok r
  | .point x y :: l, been, r => do
    match ← firstArea x y w h 0 m.entries with
    | none => areaLoop m w h l been (r + m.dflt)
    | some i =>
      if i ∈ been then areaLoop m w h l been r
      else areaLoop m w h l (i :: been) (r + ((m.entries[i]?).map (·.2)).getD 0)
  | _ :: _, _, _ => .error .type

/-- variables.py:1420-1481 `AreaMapping.map_value`. -/
def AreaMapping.mapValue (m : AreaMapping) (v : Val) (w h : Option Int) : R Rat := do
  let src ← srcValues v
  match v.bt with
  | none => do
    let _ ← areaLoop m w h src [] 0
    pure 0
  | some t =>
    if t ≠ .point then .error .value
    else do
      let r ← areaLoop m w h src [] 0
      if !v.isSet then pure 0 else pure (clip m.lower m.upper r)

/-- variables.py:1568-1634 `MatchTable` after `content_changed`: base type of the outcome,
default, entries with converted targets. -/
structure MatchTable where
  bt : BaseType
  dflt : Option Datum
  entries : List (Int × Option Datum)
  deriving DecidableEq, Repr

/-- variables.py:1631-1634. -/
def MatchTable.map (m : MatchTable) : List (Int × Option Datum) :=
  m.entries.foldl (fun acc e => dset e.1 e.2 acc) []

/-- variables.py:1636-1655 `MatchTable.lookup`. -/
def MatchTable.lookup (m : MatchTable) (v : Val) : R Val :=
  if !v.isSet then newSingle (some m.bt) none
  else
    match v with
    | .single (some .integer) (some (.int i)) =>
      newSingle (some m.bt) ((dget i m.map).getD m.dflt)
    | _ => .error .value

/-- variables.py:1687-1715 `InterpolationTable` after `content_changed`: entries (source value,
include boundary, target). -/
structure InterpTable where
  bt : BaseType
  dflt : Option Datum
  table : List (Rat × Bool × Option Datum)
  deriving DecidableEq, Repr

/-- The loop of variables.py:1739-1742. -/
def interpLoop (x : Rat) (d : Option Datum) : List (Rat × Bool × Option Datum) → Option Datum
  | [] => d
  | (s, lte, tv) :: l =>
    if s < x ∨ (lte = true ∧ s = x) then tv else interpLoop x d l

/-- variables.py:1725-1735: the number that is looked up. -/
def interpSrc (v : Val) : R Rat :=
  match v with
  | .single (some .integer) (some (.int i)) => .ok (i : Rat)
  | .single (some .float) (some (.num q)) => .ok q
  | .single (some .duration) (some (.num q)) => .ok q
  | _ => .error .value

/-- variables.py:1717-1743 `InterpolationTable.lookup`. -/
def InterpTable.lookup (m : InterpTable) (v : Val) : R Val :=
  if !v.isSet then newSingle (some m.bt) none
  else do
    let x ← interpSrc v
    newSingle (some m.bt) (interpLoop x m.dflt m.table)

end Verif.Qti
