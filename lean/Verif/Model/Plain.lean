import Verif.Model.Names

/-
Files that were not written by the connector (`is_log_based_file` is false, src/H5VL_log_filei.cpp L40-46, L122-125): what each
callback does with such a file.  The connector below is arbitrary: a state and a function that answers calls.  A handle of
the connector stands for one object below (`uo`) and has the same number.

Property lists and H5Fget_create_plist are the subject of C52, references between objects, files and wrap contexts that of
C72, calls with a request that of C62.
-/

namespace Verif.Plain

/-- `op->type`. -/
inductive Typ where
  | file
  | dataset
  | group
  | attr
  | datatype
deriving DecidableEq, Repr

/-- The C++ structure behind a handle: `H5VL_log_file_t`, `H5VL_log_dset_t`, or `H5VL_log_obj_t` for everything else. -/
inductive Cls where
  | file
  | dset
  | base
deriving DecidableEq, Repr

/-- `H5VL_loc_params_t`; `dec`: H5_ITER_DEC. -/
inductive Loc where
  | self
  | name (n : Name)
  | idx (n : Nat) (dec : Bool)
deriving DecidableEq, Repr

/-- Callbacks that take one object and return nothing but data. -/
inductive Cb where
  | attrRead | attrWrite | attrQuery | attrSpecific | attrOptional
  | dsetRead | dsetWrite | dsetGet | dsetSpecific | dsetOptional
  | groupGet | groupSpecific | groupOptional
  | typeGet | typeSpecific | typeOptional
  | linkCreate | linkGet | linkSpecific | linkOptional
  | objQuery | objSpecific | objOptional
  | fileQuery | fileFlush | fileSpecific | fileOptional
deriving DecidableEq, Repr

/-- A call of the library.  `x` stands for all other arguments. -/
inductive Call where
  | plain (cb : Cb) (o : Nat) (loc : Loc) (x : Nat)
  | attrCreate (o : Nat) (loc : Loc) (n : Name) (x : Nat)
  | attrOpen (o : Nat) (loc : Loc) (n : Name)
  | attrInfo (o : Nat) (loc : Loc)
  | attrName (o : Nat) (loc : Loc)
  | dsetCreate (o : Nat) (loc : Loc) (n : Name) (varStr : Bool) (x : Nat)
  | dsetOpen (o : Nat) (loc : Loc) (n : Name)
  | groupCreate (o : Nat) (loc : Loc) (n : Name) (x : Nat)
  | groupOpen (o : Nat) (loc : Loc) (n : Name)
  | typeCommit (o : Nat) (loc : Loc) (n : Name) (x : Nat)
  | typeOpen (o : Nat) (loc : Loc) (n : Name)
  | objOpen (o : Nat) (loc : Loc)
  | objInfo (o : Nat) (loc : Loc)
  | linkCopy (src dst : Option Nat) (l1 l2 : Loc) (x : Nat)
  | linkMove (src dst : Option Nat) (l1 l2 : Loc) (x : Nat)
  | objCopy (src dst : Nat) (l1 l2 : Loc) (x : Nat)
  | mount (o child : Nat) (n : Name) (x : Nat)
  | fileAccess (o : Nat)
  | close (o : Nat)
deriving DecidableEq, Repr

/-- An answer. `obj`: a new object and its type; `info`: `num_attrs` of H5O_info2_t and the rest; `ainfo`: `corder` of
H5A_info_t and the rest. -/
inductive Ret where
  | failed
  | done (x : Nat)
  | obj (o : Nat) (t : Typ)
  | info (nattrs x : Nat)
  | ainfo (corder x : Nat)
deriving DecidableEq, Repr

/-- The connector below. -/
structure Under (σ : Type) where
  step : σ → Call → σ × Ret

/-- The state: that of the connector below, the handle of the file, the open handles with the structure and the type behind
them, and the structures that nobody can delete any more.  The reference count of the file (src/H5VL_log_obji.cpp L60-95) is the
number of the handles and of the lost structures. -/
structure St (σ : Type) where
  below : σ
  file : Nat
  handles : List (Nat × Cls × Typ)
  lost : Nat

/-- The structure and the type behind a handle. -/
def St.of {σ : Type} (st : St σ) (o : Nat) : Option (Cls × Typ) := (st.handles.find? (fun h => h.1 == o)).map (·.2)

/-- `refcnt`. -/
def St.refs {σ : Type} (st : St σ) : Nat := st.handles.length + st.lost

/-- What a call returns to the library: the answer, and the location parameters as the call leaves them. -/
structure Out where
  ret : Ret
  loc : Loc
deriving DecidableEq, Repr

/-- `n += k` and `n -= k` on `hsize_t`. -/
def add64 (n k : Nat) : Nat := (n + k) % 2 ^ 64
def sub64 (n k : Nat) : Nat := if k ≤ n then n - k else n + 2 ^ 64 - k

/-- `corder -= k` on `H5O_msg_crt_idx_t` (32 bits). -/
def sub32 (n k : Nat) : Nat := if k ≤ n then n - k else n + 2 ^ 32 - k

/-- The number of internal attributes assumed for a handle (src/H5VL_log_att.cpp L283-287, src/H5VL_log_obj.cpp L210-216). -/
def internal : Typ → Nat
  | .file => 1
  | .dataset => 3
  | _ => 0

/-- Number of an index and its replacement. -/
def Loc.map (f : Nat → Nat) : Loc → Loc
  | .idx n d => .idx (f n) d
  | l => l

/-- A new handle for the object in the answer. -/
def St.add {σ : Type} (st : St σ) (s : σ) (r : Ret) (c : Typ → Cls) : St σ :=
  match r with
  | .obj o t => { st with below := s, handles := (o, c t, t) :: st.handles }
  | _ => { st with below := s }

/-- The structure of `o` is deleted.  With the last reference the file below is closed, whatever that returns
(`H5VL_log_filei_dec_ref`, `H5VL_log_filei_close`, src/H5VL_log_filei.cpp L721-731, L1081-1084). -/
def St.drop {σ : Type} (U : Under σ) (st : St σ) (s : σ) (o : Nat) : St σ :=
  let q : St σ := { st with below := s, handles := st.handles.filter (fun h => h.1 != o) }
  if q.refs = 0 then { q with below := (U.step s (.close st.file)).1 } else q

/-- The query of an attribute by index (src/H5VL_log_att.cpp L279-300, L302-347), not restricted to log-based files: the index is
increased for the call; if the call fails it stays so; for decreasing order the call is repeated with the original
index. -/
def indexed {σ : Type} (U : Under σ) (s : σ) (t : Typ) (loc : Loc) (ask : Loc → Call) : σ × Ret × Loc :=
  match loc with
  | .idx n dec =>
    let r := U.step s (ask (.idx (add64 n (internal t)) dec))
    if r.2 = .failed then (r.1, .failed, .idx (add64 n (internal t)) dec)
    else if dec then
      let q := U.step r.1 (ask (.idx (sub64 (add64 n (internal t)) (internal t)) dec))
      (q.1, q.2, .idx (sub64 (add64 n (internal t)) (internal t)) dec)
    else (r.1, r.2, .idx (sub64 (add64 n (internal t)) (internal t)) dec)
  | l =>
    let r := U.step s (ask l)
    (r.1, r.2, l)

/-- `corder` reduced (src/H5VL_log_att.cpp L324-328). -/
def lessOrder (t : Typ) : Ret → Ret
  | .ainfo c x => .ainfo (sub32 c (internal t)) x
  | r => r

/-- `num_attrs` reduced (src/H5VL_log_obj.cpp L210-216). -/
def lessAttrs (t : Typ) : Ret → Ret
  | .info n x => .info (sub64 n (internal t)) x
  | r => r

/-- The structure made for an object opened by H5Oopen (src/H5VL_log_obj.cpp L79), whatever its type. -/
def byObject : Typ → Cls := fun _ => .base

/-- A call that only passes on what it gets. -/
def pass {σ : Type} (U : Under σ) (st : St σ) (c : Call) (l : Loc) : Res (St σ × Out) :=
  let r := U.step st.below c
  .ok ({ st with below := r.1 }, ⟨r.2, l⟩)

/-- A call that passes on what it gets and makes a structure for the object it gets back. -/
def wrap {σ : Type} (U : Under σ) (st : St σ) (c : Call) (l : Loc) (f : Typ → Cls) : Res (St σ × Out) :=
  let r := U.step st.below c
  .ok (st.add r.1 r.2 f, ⟨r.2, l⟩)

/-- One call.  The library refuses invalid handles.
* `plain`: src/H5VL_log_att.cpp L186-247 (read, write), L263-300 (other queries), L409-412, L510-540; src/H5VL_log_dataset.cpp L299-302, L352-355,
  L441-444, L514-517, L589-592; src/H5VL_log_group.cpp L183-303; src/H5VL_log_datatype.cpp L162-280; src/H5VL_log_link.cpp L43-82, L297-318, L368-376, L464-485;
  src/H5VL_log_obj.cpp L191-207, L259-265, L338-356; src/H5VL_log_file.cpp L350-352, L454-461, L493-497.
* names are not changed: src/H5VL_log_att.cpp L63-67, L140-142; src/H5VL_log_dataset.cpp L102-107, L253-257; src/H5VL_log_group.cpp L61-65, L130-134;
  src/H5VL_log_datatype.cpp L55-59, L116-120.
* H5Aopen_by_idx reduces the index after the call although it has not been increased (src/H5VL_log_att.cpp L157-164).
* H5Dcreate refuses strings of variable length before it looks at the file (src/H5VL_log_dataset.cpp L88-90).
* H5Fget_access_plist asks a file that is not set (src/H5VL_log_file.cpp L346-347); the connector below is asked with NULL.
* H5Lmove looks into the source and the destination (src/H5VL_log_link.cpp L197, L213); one of them may be NULL (H5L_SAME_LOC).
* H5Fmount passes on the structure of the child file as the file below (src/H5VL_log_group.cpp L246: `args` is not looked at, and the
  library gives every connector the object of the connector itself).
* H5Dclose deletes an `H5VL_log_dset_t` (src/H5VL_log_dataset.cpp L699); if the structure is an `H5VL_log_obj_t` this is undefined.  Other
  close callbacks delete an `H5VL_log_obj_t` (src/H5VL_log_att.cpp L581, src/H5VL_log_group.cpp L343, src/H5VL_log_datatype.cpp L290).
* H5Fclose only drops a reference (src/H5VL_log_file.cpp L529-535).
* A failed H5Dopen leaves its structure behind (src/H5VL_log_dataset.cpp L254-256, L273-277); the others delete it. -/
def St.step {σ : Type} (U : Under σ) (st : St σ) : Call → Res (St σ × Out)
  | .plain cb o loc x => if (st.of o).isNone then .ok (st, ⟨.failed, loc⟩) else
      pass U st (.plain cb o loc x) loc
  | .attrCreate o loc n x => if (st.of o).isNone then .ok (st, ⟨.failed, loc⟩) else
      wrap U st (.attrCreate o loc n x) loc (fun _ => .base)
  | .attrOpen o loc n =>
    match st.of o with
    | none => .ok (st, ⟨.failed, loc⟩)
    | some h =>
      let r := U.step st.below (.attrOpen o loc n)
      if r.2 = .failed then .ok ({ st with below := r.1 }, ⟨.failed, loc⟩)
      else .ok (st.add r.1 r.2 (fun _ => .base), ⟨r.2, loc.map (fun k => sub64 k (internal h.2))⟩)
  | .attrInfo o loc =>
    match st.of o with
    | none => .ok (st, ⟨.failed, loc⟩)
    | some h =>
      let r := indexed U st.below h.2 loc (fun l => .attrInfo o l)
      .ok ({ st with below := r.1 }, ⟨lessOrder h.2 r.2.1, r.2.2⟩)
  | .attrName o loc =>
    match st.of o with
    | none => .ok (st, ⟨.failed, loc⟩)
    | some h =>
      let r := indexed U st.below h.2 loc (fun l => .attrName o l)
      .ok ({ st with below := r.1 }, ⟨r.2.1, r.2.2⟩)
  | .dsetCreate o loc n v x => if (st.of o).isNone then .ok (st, ⟨.failed, loc⟩) else
      if v then .ok (st, ⟨.failed, loc⟩) else wrap U st (.dsetCreate o loc n v x) loc (fun _ => .dset)
  | .dsetOpen o loc n => if (st.of o).isNone then .ok (st, ⟨.failed, loc⟩) else
      let r := U.step st.below (.dsetOpen o loc n)
      if r.2 = .failed then .ok ({ st with below := r.1, lost := st.lost + 1 }, ⟨.failed, loc⟩)
      else .ok (st.add r.1 r.2 (fun _ => .dset), ⟨r.2, loc⟩)
  | .groupCreate o loc n x => if (st.of o).isNone then .ok (st, ⟨.failed, loc⟩) else
      wrap U st (.groupCreate o loc n x) loc (fun _ => .base)
  | .groupOpen o loc n => if (st.of o).isNone then .ok (st, ⟨.failed, loc⟩) else
      wrap U st (.groupOpen o loc n) loc (fun _ => .base)
  | .typeCommit o loc n x => if (st.of o).isNone then .ok (st, ⟨.failed, loc⟩) else
      wrap U st (.typeCommit o loc n x) loc (fun _ => .base)
  | .typeOpen o loc n => if (st.of o).isNone then .ok (st, ⟨.failed, loc⟩) else
      wrap U st (.typeOpen o loc n) loc (fun _ => .base)
  | .objOpen o loc => if (st.of o).isNone then .ok (st, ⟨.failed, loc⟩) else
      wrap U st (.objOpen o loc) loc byObject
  | .objInfo o loc =>
    match st.of o with
    | none => .ok (st, ⟨.failed, loc⟩)
    | some h =>
      let r := U.step st.below (.objInfo o loc)
      .ok ({ st with below := r.1 }, ⟨lessAttrs h.2 r.2, loc⟩)
  | .linkCopy src dst l1 l2 x =>
    if src.any (fun o => (st.of o).isNone) || dst.any (fun o => (st.of o).isNone) then .ok (st, ⟨.failed, l1⟩) else
      pass U st (.linkCopy src dst l1 l2 x) l1
  | .linkMove src dst l1 l2 x =>
    if src.any (fun o => (st.of o).isNone) || dst.any (fun o => (st.of o).isNone) then .ok (st, ⟨.failed, l1⟩) else
      if src.isNone || dst.isNone then .ub else pass U st (.linkMove src dst l1 l2 x) l1
  | .objCopy src dst l1 l2 x =>
    if (st.of src).isNone || (st.of dst).isNone then .ok (st, ⟨.failed, l1⟩) else
      pass U st (.objCopy src dst l1 l2 x) l1
  | .mount o child _ _ => if (st.of o).isNone || (st.of child).isNone then .ok (st, ⟨.failed, .self⟩) else .ub
  | .fileAccess _ => .ok (st, ⟨.failed, .self⟩)
  | .close o =>
    match st.of o with
    | none => .ok (st, ⟨.failed, .self⟩)
    | some h =>
      if h.2 = .file then .ok (st.drop U st.below o, ⟨.done 0, .self⟩)
      else
        let r := U.step st.below (.close o)
        if r.2 = .failed then .ok ({ st with below := r.1 }, ⟨.failed, .self⟩)
        else if h.2 = .dataset ∧ h.1 ≠ .dset then .ub
        else .ok (st.drop U r.1 o, ⟨r.2, .self⟩)

/-- Successive calls. -/
def St.run {σ : Type} (U : Under σ) : St σ → List Call → Res (St σ × List Out)
  | st, [] => .ok (st, [])
  | st, c :: cs => do
    let r ← st.step U c
    let q ← r.1.run U cs
    return (q.1, r.2 :: q.2)

end Verif.Plain
