import Verif.Vfs.C104
/-!
# C105: the file system in memory (pyslet/vfs.py:559-590, 626-922)
-/
namespace Verif.Vfs

/-! ### Model -/

/-- An open stream of a file: its contents, position, and whether it can be read and written.  Streams are those
opened in binary mode; the buffer between the user and the stream is not modelled. -/
structure Stream where
  buf : List Nat
  pos : Nat
  readable : Bool
  writable : Bool
  deriving DecidableEq, Repr

/-- vfs.py:626-653: a directory, or a file with its data and, while it is open, its stream. -/
inductive Item
  | dir
  | file (data : List Nat) (stream : Option Stream)
  deriving DecidableEq, Repr

/-- vfs.py:725, 729: the dictionary of all files and directories and the working directory. -/
structure MemFS where
  items : List (Str × Item)
  wd : Str
  deriving DecidableEq, Repr

/-- vfs.py:731-736. -/
def MemFS.new : MemFS := ⟨[], [47]⟩

/-- `d.get(k, None)`. -/
def dget (d : List (Str × Item)) (k : Str) : Option Item := (d.find? (·.1 == k)).map (·.2)

/-- `d[k] = v`. -/
def dset (d : List (Str × Item)) (k : Str) (v : Item) : List (Str × Item) :=
  if (dget d k).isSome then d.map fun e => if e.1 = k then (k, v) else e else d ++ [(k, v)]

/-- `del d[k]`. -/
def ddel (d : List (Str × Item)) (k : Str) : List (Str × Item) := d.filter (·.1 != k)

/-- `realpath`, vfs.py:359-368. -/
def MemFS.real (m : MemFS) (p : Str) : Str := realpath m.wd p

/-- `chdir`, vfs.py:738-743. -/
def MemFS.chdir (m : MemFS) (p : Str) : MemFS := { m with wd := if isAbs p then p else abspath m.wd p }

/-- `exists`, vfs.py:783-788. -/
def MemFS.pathExists (m : MemFS) (p : Str) : Bool := (dget m.items (m.real p)).isSome

/-- `isfile`, vfs.py:790-797. -/
def MemFS.isFile (m : MemFS) (p : Str) : Bool :=
  if isDirlike p then false
  else match dget m.items (m.real p) with
    | some (.file ..) => true
    | _ => false

/-- `isdir`, vfs.py:799-804. -/
def MemFS.isDir (m : MemFS) (p : Str) : Bool := dget m.items (m.real p) == some .dir

/-- The first letter of a mode and whether it holds a `+`. -/
inductive Mode
  | r (plus : Bool)
  | w (plus : Bool)
  | a (plus : Bool)
  deriving DecidableEq, Repr

/-- `MemFile.open`, vfs.py:655-697: the data and the stream.  Errors are `none`. -/
def fileOpen (data : List Nat) (s : Option Stream) (mode : Mode) : Option (List Nat × Stream) :=
  match s with
  | some _ => none
  | none =>
    match mode with
    | .r plus => some (data, ⟨data, 0, true, plus⟩)
    | .w plus => some ([], ⟨[], 0, plus, true⟩)
    | .a plus => some (data, ⟨data, data.length, plus, true⟩)

/-- `open`, vfs.py:806-821; the second component tells whether it succeeds. -/
def MemFS.openPath (m : MemFS) (p : Str) (mode : Mode) : MemFS × Bool :=
  if p = [] ∨ isDirlike p = true then (m, false)
  else
    let c := m.real p
    match dget m.items c with
    | none =>
      -- a new file, opened
      match fileOpen [] none mode with
      | some (d, s) => ({ m with items := dset m.items c (.file d (some s)) }, true)
      | none => ({ m with items := dset m.items c (.file [] none) }, false)
    | some (.file data s) =>
      match fileOpen data s mode with
      | some (d, s) => ({ m with items := dset m.items c (.file d (some s)) }, true)
      | none => (m, false)
    | some .dir => (m, false)

/-- `io.BytesIO.write` at a position. -/
def writeAt (buf : List Nat) (pos : Nat) (bytes : List Nat) : List Nat :=
  (buf ++ List.replicate (pos - buf.length) 0).take pos ++ bytes ++ buf.drop (pos + bytes.length)

/-- The stream opened for the file with the canonical path `c` writes some bytes. -/
def MemFS.write (m : MemFS) (c : Str) (bytes : List Nat) : MemFS :=
  match dget m.items c with
  | some (.file d (some s)) =>
    if s.writable then
      { m with items := dset m.items c (.file d (some { s with buf := writeAt s.buf s.pos bytes, pos := s.pos + bytes.length })) }
    else m
  | _ => m

/-- What is left to read in the stream of the file. -/
def MemFS.readAll (m : MemFS) (c : Str) : Option (List Nat) :=
  match dget m.items c with
  | some (.file _ (some s)) => if s.readable then some (s.buf.drop s.pos) else none
  | _ => none

/-- The stream is closed, vfs.py:638-641: the file gets its contents. -/
def MemFS.close (m : MemFS) (c : Str) : MemFS :=
  match dget m.items c with
  | some (.file _ (some s)) => { m with items := dset m.items c (.file s.buf none) }
  | _ => m

/-- vfs.py:832-842. -/
def MemFS.mkdirAt (m : MemFS) (head c : Str) : MemFS × Bool :=
  let rest (m : MemFS) : MemFS × Bool :=
    if (dget m.items c).isSome then (m, false) else ({ m with items := dset m.items c .dir }, true)
  if (dget m.items head).isNone then
    if isRoot head then
      let m := { m with items := dset m.items head .dir }
      if c = head then (m, true) else rest m
    else (m, false)
  else rest m

/-- `mkdir`, vfs.py:823-842. -/
def MemFS.mkdir (m : MemFS) (p : Str) : MemFS × Bool :=
  let c := m.real p
  let ht := split c
  if ht.2 = [] then m.mkdirAt (split ht.1).1 ht.1 else m.mkdirAt ht.1 c

/-- The prefix of the paths inside a directory, vfs.py:852-855, 894-897. -/
def dirPrefix (c : Str) : Str := if isRoot c then c else c ++ [47]

/-- `listdir`, vfs.py:844-864. -/
def MemFS.listdir (m : MemFS) (p : Str) : Option (List Str) :=
  let c := m.real p
  if dget m.items c = some .dir then
    some (m.items.filterMap fun e =>
      if (dirPrefix c).isPrefixOf e.1 then
        let ht := split e.1
        if ht.1 = c ∧ ht.2 ≠ [] ∧ 47 ∉ ht.2 then some ht.2 else none
      else none)
  else none

/-- `remove`, vfs.py:866-882. -/
def MemFS.remove (m : MemFS) (p : Str) : MemFS × Bool :=
  if m.isFile p then
    match dget m.items (m.real p) with
    | some (.file _ none) => ({ m with items := ddel m.items (m.real p) }, true)
    | _ => (m, false)
  else (m, false)

/-- The item is an open file. -/
def Item.isOpen : Item → Bool
  | .file _ (some _) => true
  | _ => false

/-- `rmtree`, vfs.py:884-922. -/
def MemFS.rmtree (m : MemFS) (p : Str) (ignoreErrors : Bool) : MemFS × Bool :=
  let c := m.real p
  if dget m.items c = some .dir then
    let inside := m.items.filter fun e => (dirPrefix c).isPrefixOf e.1
    let openFiles := inside.any fun e => e.2.isOpen
    if openFiles && !ignoreErrors then (m, false)
    else
      -- files that are not open, then, unless a file is open, directories
      let gone (e : Str × Item) : Bool := (dirPrefix c).isPrefixOf e.1 &&
        (match e.2 with | .dir => !openFiles | i => !i.isOpen)
      ({ m with items := m.items.filter fun e => !gone e }, true)
  else (m, ignoreErrors)

/-- The directories that `makedirs` finds missing, the innermost first (vfs.py:579-584); the number bounds the loop. -/
def MemFS.missing (m : MemFS) : Nat → Str → List Str
  | 0, _ => []
  | n + 1, head =>
    if m.pathExists head then []
    else if (split head).1 = head then [head]
    else head :: m.missing n (split head).1

/-- `mkdir` for each, until one fails. -/
def MemFS.mkdirs (m : MemFS) : List Str → MemFS × Bool
  | [] => (m, true)
  | p :: ps => match m.mkdir p with
    | (m, true) => m.mkdirs ps
    | (m, false) => (m, false)

/-- `makedirs`, vfs.py:559-590.  (`dpath == cpath` only for the root, whose head is itself.) -/
def MemFS.makedirs (m : MemFS) (p : Str) : MemFS × Bool :=
  let c := m.real p
  if m.isDir c then (m, true)
  else if m.pathExists c then (m, false)
  else
    let ht := split c
    let c := if ht.2 = [] then ht.1 else c
    let head := (split c).1
    let ms := (m.missing (head.length + 1) head).reverse
    match m.mkdirs ms with
    | (m, false) => (m, false)
    | (m, true) => if c ∈ ms then (m, true) else m.mkdir c

/-! ### Specification -/

/-- What is at a place, given by the names on the way up to the root. -/
def MemFS.at (m : MemFS) (t : List Str) : Option Item := dget m.items (absText t.reverse)

/-- The place a path leads to. -/
def MemFS.place (m : MemFS) (p : Str) : List Str := resolve (resolve [] m.wd) p

/-- The state after any operations: paths in the dictionary are canonical and different, and the working directory is
absolute. -/
structure MemFS.Ok (m : MemFS) : Prop where
  keys : ∀ e ∈ m.items, ∃ names : List Str, (∀ c ∈ names, IsName c) ∧ e.1 = absText names
  nodup : (m.items.map (·.1)).Nodup
  abs : isAbs m.wd = true
  plain : NoDouble m.wd

/-- The operations. -/
inductive FsOp
  | chdir (p : Str)
  | openPath (p : Str) (mode : Mode)
  | write (c : Str) (bytes : List Nat)
  | close (c : Str)
  | mkdir (p : Str)
  | remove (p : Str)
  | rmtree (p : Str) (ignoreErrors : Bool)
  | makedirs (p : Str)

/-- The path of an operation. -/
def FsOp.path : FsOp → Str
  | .chdir p | .openPath p _ | .write p _ | .close p | .mkdir p | .remove p | .rmtree p _ | .makedirs p => p

def MemFS.step (m : MemFS) : FsOp → MemFS
  | .chdir p => m.chdir p
  | .openPath p mode => (m.openPath p mode).1
  | .write c b => m.write c b
  | .close c => m.close c
  | .mkdir p => (m.mkdir p).1
  | .remove p => (m.remove p).1
  | .rmtree p i => (m.rmtree p i).1
  | .makedirs p => (m.makedirs p).1

end Verif.Vfs
