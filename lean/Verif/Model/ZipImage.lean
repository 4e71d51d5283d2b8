import Verif.Model.Zip

/-!
# Zip files as they are on disk while they are written, for `vistautils/key_value.py:453-508`

What the standard library's `zipfile` does to the file.  A zip file is a sequence of blocks: the entries, the central directory, and
the end record.  `ZipFile(path, "w")` empties the file; `ZipFile(path, "a")` leaves it and writes over its directory, or behind its
end if it is not a zip file.  `writestr` writes an entry; `close` writes the directory and the end record and cuts off what is left of
the old content.  The lengths of the blocks are not modelled: when a block is written over others, some part of what was there may
remain behind it.
-/
namespace Vista
namespace ZipImage
open Zip

/-- A block: an entry, the directory (names and the places of the entries), the end record (with the place of the directory), or
anything else, such as something that has not been written in full. -/
inductive Block
  | entry (name : Str) (b : Bytes)
  | directory (entries : List (Str × Nat))
  | endRecord (start : Nat)
  | junk

/-- The content of the file. -/
abbrev Image := List Block

/-- `ZipFile(path, ...)` reading the directory (standard library): it stands before the end record, which is at the very end and says
where the directory is; `none` stands for `BadZipFile`.  (The standard library accepts other data in front of an archive, with the
places shifted; an end record left over from an earlier directory never fits, as each directory written is longer than the one
before.) -/
def directoryOf (img : Image) : Option (List (Str × Nat)) :=
  match img.reverse with
  | .endRecord start :: .directory es :: front => if front.length = start then some es else none
  | _ => none

/-- The content of an entry. -/
def entryAt (img : Image) (e : Str × Nat) : Option (Str × Bytes) :=
  match img[e.2]? with
  | some (.entry n b) => if n = e.1 then some (n, b) else none
  | _ => none

/-- The entries of an archive. -/
def contents (img : Image) : Option Archive :=
  match directoryOf img with
  | some es => es.mapM (entryAt img)
  | none => none

/-- What the process does to the file: write a block at a place, or cut the file off. -/
inductive Action
  | put (place : Nat) (b : Block)
  | truncate (length : Nat)

/-- Writing a block over what is there: a part of it may remain behind, beginning with a part of a block or not. -/
def Puts (img : Image) (i : Nat) (b : Block) (img' : Image) : Prop :=
  ∃ remains, remains <:+ img.drop (i + 1) ∧ (img' = img.take i ++ b :: remains ∨ img' = img.take i ++ b :: .junk :: remains)

/-- The contents the file can have, at the time a process that is doing the actions is killed: blocks are written one after the other,
perhaps in several parts. -/
inductive Images : Image → List Action → Image → Prop
  | now (img : Image) (acts : List Action) : Images img acts img
  | part {img mid img' : Image} {i : Nat} {b : Block} {acts : List Action} :
      Puts img i .junk mid → Images mid (.put i b :: acts) img' → Images img (.put i b :: acts) img'
  | put {img mid img' : Image} {i : Nat} {b : Block} {acts : List Action} :
      Puts img i b mid → Images mid acts img' → Images img (.put i b :: acts) img'
  | truncate {img img' : Image} {n : Nat} {acts : List Action} :
      Images (img.take n) acts img' → Images img (.truncate n :: acts) img'

/-- The contents the file can have when the actions have been done. -/
inductive Completes : Image → List Action → Image → Prop
  | done (img : Image) : Completes img [] img
  | part {img mid img' : Image} {i : Nat} {b : Block} {acts : List Action} :
      Puts img i .junk mid → Completes mid (.put i b :: acts) img' → Completes img (.put i b :: acts) img'
  | put {img mid img' : Image} {i : Nat} {b : Block} {acts : List Action} :
      Puts img i b mid → Completes mid acts img' → Completes img (.put i b :: acts) img'
  | truncate {img img' : Image} {n : Nat} {acts : List Action} :
      Completes (img.take n) acts img' → Completes img (.truncate n :: acts) img'

/-- `ZipFile(path, "w" or "a")` (standard library), called at `key_value.py:496`: the file afterwards, the place where the next entry is
written, and the directory so far. -/
def openArchive (overwrite : Bool) (file : Option Image) : Image × Nat × List (Str × Nat) :=
  match overwrite, file with
  | false, some img =>
    match directoryOf img with
    | some es => (img, img.length - 2, es)
    | none => (img, img.length, [])
  | _, _ => ([], 0, [])

/-- `writestr` for each of the entries, and `close` (standard library), called at `key_value.py:489, 60, 508`. -/
def actions (place : Nat) (dir : List (Str × Nat)) : List (Str × Bytes) → List Action
  | [] => [.put place (.directory dir), .put (place + 1) (.endRecord place), .truncate (place + 2)]
  | (n, b) :: rest => .put place (.entry n b) :: actions (place + 1) (dir ++ [(n, place)]) rest

/-- The archive at a path: none if there is no file, or it is not a zip file. -/
def archiveAt (file : Option Image) : Disk := file.bind contents

/-- The entries the sink of a session writes to its archive, in order: what the archive has at the end (`key_value.py:477-508`) beyond
what it had when it was opened. -/
def Written (overwrite : Bool) (file : Option Image) (sink : Sink) (calls : List (Str × Value)) (entries : List (Str × Bytes))
    (outs : List (Res Unit)) : Prop :=
  ∃ s, session (archiveAt file) sink calls = .ok (some ((if overwrite then [] else (archiveAt file).getD []) ++ entries), s, outs)

/-- A session on a path that runs to its end. -/
def Done (overwrite : Bool) (file : Option Image) (sink : Sink) (calls : List (Str × Value)) (outs : List (Res Unit)) (file' : Option Image) :
    Prop :=
  ∃ entries img, Written overwrite file sink calls entries outs ∧
    Completes (openArchive overwrite file).1 (actions (openArchive overwrite file).2.1 (openArchive overwrite file).2.2 entries) img ∧
    file' = some img

/-- A session on a path whose process is killed at some point: before the file is opened, or later. -/
def Killed (overwrite : Bool) (file : Option Image) (sink : Sink) (calls : List (Str × Value)) (file' : Option Image) : Prop :=
  file' = file ∨ ∃ entries outs img, Written overwrite file sink calls entries outs ∧
    Images (openArchive overwrite file).1 (actions (openArchive overwrite file).2.1 (openArchive overwrite file).2.2 entries) img ∧
    file' = some img

/-- `_ZipFileKeyValueSource.__enter__`, `key_value.py:628-632`, for a file that may not be a zip file (`BadZipFile`). -/
def enterSource {V : Type} (file : Option Image) (s : Source V) : Res (Source V) :=
  match file with
  | none => s.enter none
  | some img =>
    match contents img with
    | none => .error .other
    | some a => s.enter (some a)

end ZipImage
end Vista
