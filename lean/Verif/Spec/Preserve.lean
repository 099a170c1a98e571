import Verif.Model.Files
/-
  C97: what opening a torrent may do to the disk.
-/
namespace Gotit.Spec
open Gotit

/-- The files of a torrent in a download directory, in order: one named after the torrent, or the named ones inside the directory named
after the torrent. -/
def outputs (root : Bytes) (mi : Metainfo) : List Bytes :=
  if mi.infoLength ≠ 0 then [join root mi.name] else mi.files.map fun f => join (join root mi.name) (f.path.headD [])

/-- Every file has the contents it had before. -/
def Untouched (before after : Disk) : Prop := ∀ q, after q = before q

/-- Nothing hinders opening the torrent before the first file is created: the piece hashes are complete, and, for several files, the
directory can be made and each file has a name. -/
def Startable (os : Os) (root : Bytes) (mi : Metainfo) : Prop :=
  mi.pieces.length % 20 = 0 ∧
    (mi.infoLength = 0 → os.mkdirNotExist (join root mi.name) = false ∧ ∀ f ∈ mi.files, f.path ≠ [])

/-- The disk on which the given files are empty and all others as before. -/
def Emptied (qs : List Bytes) (before after : Disk) : Prop := ∀ q, (q ∈ qs → after q = []) ∧ (q ∉ qs → after q = before q)

end Gotit.Spec
