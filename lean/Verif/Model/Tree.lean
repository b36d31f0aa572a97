import Verif.Model.Names

/-
The objects of a file and the links between them.  `Tree` is what the under VOL (HDF5's native connector) stores: objects,
and hard links in creation order.  Every operation is first defined on a tree as the under VOL performs it, then as the
connector performs it on a log-based file: it maps the names and passes the call on.

Not modelled: soft, external and user-defined links, permissions, creation of missing groups, mounting, callbacks
that stop an iteration or change the file.  Access by index and by token: Model/Lookup.lean.
-/

namespace Verif

/-- Kinds of objects. -/
inductive TKind where
  | group
  | dataset
  | datatype
deriving DecidableEq, Repr

/-- A hard link: the group it is in, its name, the object it leads to. -/
structure TLink where
  group : Nat
  name : Name
  target : Nat
deriving DecidableEq, Repr

/-- A file of the under VOL.  Objects are numbered; `0` is the root group. -/
structure Tree where
  kinds : List (Nat × TKind)
  links : List TLink
  next : Nat
deriving DecidableEq, Repr

/-- The kind of an object. -/
def Tree.kind (t : Tree) (o : Nat) : Option TKind := (t.kinds.find? (fun k => k.1 = o)).map (·.2)

/-- The object a link leads to. -/
def Tree.look (t : Tree) (g : Nat) (n : Name) : Option Nat :=
  (t.links.find? (fun l => l.group = g ∧ l.name = n)).map (·.target)

/-- Splits a path at the slashes. -/
def splitPath : Name → List Name
  | [] => [[]]
  | c :: r => if c = '/' then [] :: splitPath r else
    match splitPath r with
    | [] => [[c]]
    | x :: xs => (c :: x) :: xs

/-- The components of a path that name something: empty ones and "." are skipped. -/
def pathParts (p : Name) : List Name := (splitPath p).filter (fun c => c ≠ [] ∧ c ≠ ['.'])

/-- Where a path starts. -/
def pathStart (loc : Nat) (p : Name) : Nat := if p.head? = some '/' then 0 else loc

/-- Follows components. -/
def Tree.walk (t : Tree) : Nat → List Name → Option Nat
  | o, [] => some o
  | o, c :: cs => (t.look o c).bind (fun o' => t.walk o' cs)

/-- The object a path leads to.  An empty path is refused. -/
def Tree.find (t : Tree) (loc : Nat) (p : Name) : Option Nat :=
  if p = [] then none else t.walk (pathStart loc p) (pathParts p)

/-- The group and the name of the last component. -/
def Tree.place (t : Tree) (loc : Nat) (p : Name) : Option (Nat × Name) :=
  if p = [] then none else
  match (pathParts p).getLast? with
  | none => none
  | some c => (t.walk (pathStart loc p) (pathParts p).dropLast).bind (fun g =>
      if t.kind g = some .group then some (g, c) else none)

/-- Adds a link, unless the name is taken. -/
def Tree.link (t : Tree) (at' : Nat × Name) (o : Nat) : Option Tree :=
  if (t.look at'.1 at'.2).isSome then none else some { t with links := t.links ++ [⟨at'.1, at'.2, o⟩] }

/-- Removes a link. -/
def Tree.unlink (t : Tree) (at' : Nat × Name) : Tree :=
  { t with links := t.links.filter (fun l => ¬ (l.group = at'.1 ∧ l.name = at'.2)) }

/-! ### Operations -/

/-- Orders in which links can be listed. -/
inductive TOrder where
  | created
  | name
deriving DecidableEq, Repr

/-- The operations of the API.  Locations are numbers of handles; `none` is `H5L_SAME_LOC`. -/
inductive TOp where
  /-- `H5Gcreate`, `H5Dcreate`, `H5Tcommit` -/
  | create (loc : Nat) (p : Name) (k : TKind)
  /-- `H5Gopen`, `H5Dopen`, `H5Topen` (`k` given), `H5Oopen` -/
  | open (loc : Nat) (p : Name) (k : Option TKind)
  /-- `H5Lexists` -/
  | exists (loc : Nat) (p : Name)
  /-- `H5Ldelete` -/
  | delete (loc : Nat) (p : Name)
  /-- `H5Lmove` -/
  | move (src : Option Nat) (p : Name) (dst : Option Nat) (q : Name)
  /-- `H5Lcopy` -/
  | copy (src : Option Nat) (p : Name) (dst : Option Nat) (q : Name)
  /-- `H5Lcreate_hard` -/
  | hard (src : Option Nat) (p : Name) (dst : Option Nat) (q : Name)
  /-- `H5Literate`, `H5Literate_by_name` -/
  | list (loc : Nat) (p : Name) (o : TOrder)
  /-- `H5Gget_info`: number of links of a group -/
  | count (loc : Nat)
deriving DecidableEq, Repr

/-- What an operation tells the user. -/
inductive TOut where
  | done
  /-- the handle refers to this object -/
  | obj (o : Nat)
  | yes (b : Bool)
  | names (l : List Name)
  | num (n : Nat)
deriving DecidableEq, Repr

/-- A file and the handles the user has. -/
structure TState where
  tree : Tree
  handles : List Nat
deriving DecidableEq, Repr

/-- The order of names (`strcmp`). -/
def nameLe : Name → Name → Bool
  | [], _ => true
  | _ :: _, [] => false
  | a :: as, b :: bs => if a.toNat < b.toNat then true else if b.toNat < a.toNat then false else nameLe as bs

/-- Insertion into a sorted list. -/
def insertName (n : Name) : List Name → List Name
  | [] => [n]
  | m :: ms => if nameLe n m then n :: m :: ms else m :: insertName n ms

/-- Sorts names. -/
def sortNames : List Name → List Name
  | [] => []
  | n :: ns => insertName n (sortNames ns)

/-- The names of the links of a group in the order asked for. -/
def Tree.listing (t : Tree) (g : Nat) : TOrder → List Name
  | .created => (t.links.filter (fun l => l.group = g)).map (·.name)
  | .name => sortNames ((t.links.filter (fun l => l.group = g)).map (·.name))

/-- An operation of the under VOL with the objects of the handles filled in.  `H5L_SAME_LOC` means the other location. -/
def orElseLoc (a b : Option Nat) : Option Nat := match a with | some x => some x | none => b

/-- `H5VLgroup_create`, `H5VLdataset_create`, `H5VLdatatype_commit`. -/
def Tree.create (t : Tree) (loc : Nat) (p : Name) (k : TKind) : Res (Tree × Nat) :=
  match t.place loc p with
  | none => .err
  | some pl => match t.link pl t.next with
    | none => .err
    | some t' => .ok ({ t' with kinds := t'.kinds ++ [(t.next, k)], next := t.next + 1 }, t.next)

/-- `H5VLgroup_open`, `H5VLdataset_open`, `H5VLdatatype_open`, `H5VLobject_open`. -/
def Tree.open (t : Tree) (loc : Nat) (p : Name) (k : Option TKind) : Res Nat :=
  match t.find loc p with
  | none => .err
  | some o => match k with
    | none => .ok o
    | some k => if t.kind o = some k then .ok o else .err

/-- `H5VL_LINK_EXISTS`. -/
def Tree.has (t : Tree) (loc : Nat) (p : Name) : Res Bool :=
  match t.place loc p with
  | none => .err
  | some pl => .ok (t.look pl.1 pl.2).isSome

/-- `H5VL_LINK_DELETE`. -/
def Tree.delete (t : Tree) (loc : Nat) (p : Name) : Res Tree :=
  match t.place loc p with
  | none => .err
  | some pl => if (t.look pl.1 pl.2).isSome then .ok (t.unlink pl) else .err

/-- `H5VLlink_move`, `H5VLlink_copy`. -/
def Tree.relink (t : Tree) (keep : Bool) (src : Nat) (p : Name) (dst : Nat) (q : Name) : Res Tree :=
  match t.place src p, t.place dst q with
  | some a, some b => match t.look a.1 a.2 with
    | none => .err
    | some o => match t.link b o with
      | none => .err
      | some t' => .ok (if keep then t' else t'.unlink a)
  | _, _ => .err

/-- `H5VLlink_create` of a hard link. -/
def Tree.hard (t : Tree) (src : Nat) (p : Name) (dst : Nat) (q : Name) : Res Tree :=
  match t.find src p, t.place dst q with
  | some o, some b => match t.link b o with
    | none => .err
    | some t' => .ok t'
  | _, _ => .err

/-- `H5VL_LINK_ITER` by name: the names the callback is called with. -/
def Tree.iterate (t : Tree) (loc : Nat) (p : Name) (o : TOrder) : Res (List Name) :=
  match t.find loc p with
  | none => .err
  | some g => if t.kind g = some .group then .ok (t.listing g o) else .err

/-- `H5VL_GROUP_GET_INFO`: `nlinks`. -/
def Tree.nlinks (t : Tree) (g : Nat) : Res Nat :=
  if t.kind g = some .group then .ok (t.links.filter (fun l => l.group = g)).length else .err

/-- The path of an object relative to the group where a recursive visit starts (`H5Ovisit`, `H5Lvisit`). -/
def joinPath : List Name → Name
  | [] => []
  | [c] => c
  | c :: d :: cs => c ++ '/' :: joinPath (d :: cs)

/-- How an operation treats the names: what is passed to the under VOL for objects and for link creation, what is shown to
the callback of an iteration, and whether `H5L_SAME_LOC` can be used for the operation. -/
structure TNames where
  /-- names of most operations -/
  given : Name → Res Name
  /-- names given to link creation and copying -/
  raw : Name → Res Name
  shown : Name → Option Name
  /-- `H5L_SAME_LOC` given to a move -/
  same : Bool

/-- HDF5 without the connector. -/
def TNames.plain : TNames := ⟨fun n => if n = [] then .err else .ok n, fun n => if n = [] then .err else .ok n, some, true⟩

/-- The connector on a log-based file: src/H5VL_log_group.cpp L65, L134, src/H5VL_log_dataset.cpp L86, L252,
src/H5VL_log_datatype.cpp L56, L117, src/H5VL_log_obj.cpp L63-66, src/H5VL_log_link.cpp (get, specific: mapped; L44-86 create and
L102-147 copy: passed on unchanged; L196-239 move: mapped, and `o_src->fp`, `o_dst->fp` are read although the object is NULL
for `H5L_SAME_LOC`), src/H5VL_log_linki.cpp L13-32. -/
def TNames.log : TNames := ⟨nameRemap, fun n => if n = [] then .err else .ok n, nameShown, false⟩

/-- The object of a handle. -/
def TState.at (s : TState) (h : Nat) : Res Nat := match s.handles[h]? with | some o => .ok o | none => .err

/-- Both locations of a link operation. -/
def TState.locs (s : TState) (a b : Option Nat) : Res (Nat × Nat) :=
  match orElseLoc a b, orElseLoc b a with
  | some a, some b => do return (← s.at a, ← s.at b)
  | _, _ => .err

/-- One operation. -/
def TState.step (w : TNames) (s : TState) : TOp → Res (TState × TOut)
  | .create h p k => do
    let loc ← s.at h
    let n ← w.given p
    let r ← s.tree.create loc n k
    return (⟨r.1, s.handles ++ [r.2]⟩, .obj r.2)
  | .open h p k => do
    let loc ← s.at h
    let n ← w.given p
    let o ← s.tree.open loc n k
    return (⟨s.tree, s.handles ++ [o]⟩, .obj o)
  | .exists h p => do
    let loc ← s.at h
    let n ← w.given p
    let b ← s.tree.has loc n
    return (s, .yes b)
  | .delete h p => do
    let loc ← s.at h
    let n ← w.given p
    let t ← s.tree.delete loc n
    return (⟨t, s.handles⟩, .done)
  | .move a p b q =>
    if ¬ w.same ∧ (a = none ∨ b = none) then .ub else do
    let l ← s.locs a b
    let n ← w.given p
    let m ← w.given q
    let t ← s.tree.relink false l.1 n l.2 m
    return (⟨t, s.handles⟩, .done)
  | .copy a p b q => do
    let l ← s.locs a b
    let n ← w.raw p
    let m ← w.raw q
    let t ← s.tree.relink true l.1 n l.2 m
    return (⟨t, s.handles⟩, .done)
  | .hard a p b q => do
    let l ← s.locs a b
    let n ← w.raw p
    let m ← w.raw q
    let t ← s.tree.hard l.1 n l.2 m
    return (⟨t, s.handles⟩, .done)
  | .list h p o => do
    let loc ← s.at h
    let n ← w.given p
    let l ← s.tree.iterate loc n o
    return (s, .names (l.filterMap w.shown))
  | .count h => do
    let g ← s.at h
    let n ← s.tree.nlinks g
    return (s, .num n)

/-- A sequence of operations: what each told the user.  A failed operation changes nothing; after undefined behaviour there is
nothing more. -/
def TState.run (w : TNames) : TState → List TOp → TState × List (Res TOut)
  | s, [] => (s, [])
  | s, op :: ops => match s.step w op with
    | .ok r => let q := r.1.run w ops; (q.1, .ok r.2 :: q.2)
    | .err => let q := s.run w ops; (q.1, .err :: q.2)
    | .ub => (s, [.ub])

/-- A new file of HDF5 with a handle to it.  Number 1 is left unused. -/
def TState.plain : TState := ⟨⟨[(0, .group)], [], 2⟩, [0]⟩

/-- A new log-based file with a handle to it: it has the group of the log (src/H5VL_log_filei.cpp L200-290). -/
def TState.log : TState := ⟨⟨[(0, .group), (1, .group)], [⟨0, "_LOG".toList, 1⟩], 2⟩, [0]⟩

end Verif
