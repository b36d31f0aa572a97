import Verif.Model.Bytes

/-
Names of the datasets in which the log of a file without subfiles is kept.
-/

namespace Verif

/-- The log datasets of one kind (data: `_ld_N`; metadata: `_md_N`). `names`: the numbers of those in the file. `count`:
the counter of the open file (`nldset`, `nmdset`). `attr`: its value in the file attribute. -/
structure LogNames where
  names : List Nat
  count : Nat
  attr : Nat
deriving DecidableEq

/-- A new file, src/H5VL_log_filei.cpp L281-287. -/
def LogNames.create : LogNames := ⟨[], 0, 0⟩

/-- A log dataset is created under the name given by the counter; HDF5 refuses a name that exists, and the call fails.
Then the counter is increased, src/H5VL_logi_nb.cpp L721-747 and L849 (data), src/H5VL_log_filei_meta.cpp L187-194
(metadata). -/
def LogNames.add (s : LogNames) : Res LogNames :=
  if s.count ∈ s.names then .err else .ok { s with names := s.names ++ [s.count], count := s.count + 1 }

/-- The counter goes to the file attribute, src/H5VL_log_filei.cpp L750-767. -/
def LogNames.save (s : LogNames) : LogNames := { s with attr := s.count }

/-- Open: the counter comes from the attribute, src/H5VL_log_filei.cpp L128-132. -/
def LogNames.load (s : LogNames) : LogNames := { s with count := s.attr }

/-- Both kinds. -/
structure LogDir where
  data : LogNames
  md : LogNames
deriving DecidableEq

def LogDir.create : LogDir := ⟨.create, .create⟩

/-- `H5VL_log_nb_flush_write_reqs`; `full`: some process has data (`fsize_all`), else nothing is created,
src/H5VL_logi_nb.cpp L720. -/
def LogDir.flush (full : Bool) (s : LogDir) : Res LogDir :=
  if full then s.data.add.bind (fun d => .ok { s with data := d }) else .ok s

/-- `H5VL_log_filei_metaflush`; `full`: there is an entry to write, src/H5VL_log_filei_meta.cpp L170-194. -/
def LogDir.metaflush (full : Bool) (s : LogDir) : Res LogDir :=
  if full then s.md.add.bind (fun d => .ok { s with md := d }) else .ok s

/-- `H5VL_log_filei_close`: the attribute is written only if both flushes succeed, src/H5VL_log_filei.cpp L735-767.
`full`: there is data to flush; `entries`: there is metadata to flush. -/
def LogDir.close (full entries : Bool) (s : LogDir) : Res LogDir :=
  (s.flush full).bind (fun s1 => (s1.metaflush entries).bind (fun s2 => .ok ⟨s2.data.save, s2.md.save⟩))

/-- `H5VL_log_filei_post_open`. -/
def LogDir.load (s : LogDir) : LogDir := ⟨s.data.load, s.md.load⟩

end Verif
